import Verif.Py.Str

/-!
# Specification of lint directives

What a `# lint-ignore` / `# lint-fixme` comment means, in terms of its text only (no regex).
-/

namespace Spec
open Py

/-- The two directive words. -/
def keywords : List PStr := [py "lint-ignore", py "lint-fixme"]

/-- Only whitespace. -/
def Blank (s : PStr) : Prop := ∀ c ∈ s, isSpace c = true

instance (s : PStr) : Decidable (Blank s) := inferInstanceAs (Decidable (∀ c ∈ s, isSpace c = true))

/-- A rule name as it can be written in a directive: a non-empty run of word characters. -/
def IsName (u : Unicode) (n : PStr) : Prop := n ≠ [] ∧ ∀ c ∈ n, u.word c = true

/-- What may stand between the directive word and the first name: `:` and blanks, or at least one blank. -/
def Separator (s : PStr) : Prop := (∃ ws, s = ':' :: ws ∧ Blank ws) ∨ (s ≠ [] ∧ Blank s)

/-- `NameList u text names`: `text` is `names` written with `,` and optional blanks between them. -/
inductive NameList (u : Unicode) : PStr → List PStr → Prop where
  | one (n : PStr) : IsName u n → NameList u n [n]
  | more (n ws text : PStr) (ns : List PStr) :
      IsName u n → Blank ws → NameList u text ns → NameList u (n ++ ',' :: (ws ++ text)) (n :: ns)

/-- The text after a name list does not continue it: it starts neither with a word character nor with a comma,
blanks and a word character. -/
def EndsList (u : Unicode) (post : PStr) : Prop :=
  (∀ c r, post = c :: r → u.word c = false) ∧
  (∀ ws c r, post = ',' :: (ws ++ c :: r) → Blank ws → u.word c = false)

/-- The names listed after a directive word, given the text that follows the word. `none`: no names are listed. -/
def NamesAfter (u : Unicode) (tail : PStr) : Option (List PStr) → Prop
  | none => ¬ ∃ sep c r, tail = sep ++ c :: r ∧ Separator sep ∧ u.word c = true
  | some ns => ∃ sep text post, tail = sep ++ text ++ post ∧ Separator sep ∧ NameList u text ns ∧ EndsList u post

/-- `s` begins with a directive: a hash, blanks, a directive word (followed by `tail`). -/
def DirectiveHead (s kw tail : PStr) : Prop :=
  ∃ ws, s = '#' :: (ws ++ kw ++ tail) ∧ Blank ws ∧ kw ∈ keywords

/-- `comment` contains a directive somewhere. -/
def HasDirective (comment : PStr) : Prop :=
  ∃ pre rest kw tail, comment = pre ++ rest ∧ DirectiveHead rest kw tail

/-- The first directive of a comment, with the names it lists (`none`: a bare directive). -/
def FirstDirective (u : Unicode) (comment kw : PStr) (names : Option (List PStr)) : Prop :=
  ∃ pre rest tail, comment = pre ++ rest ∧ DirectiveHead rest kw tail ∧ NamesAfter u tail names ∧
    ∀ p q kw' tail', comment = p ++ q → DirectiveHead q kw' tail' → pre.length ≤ p.length

/-- A directive name `n` refers to the rule called `name`: without an optional `Rule` suffix it is that name, or the
lower-cased name. -/
def Names (u : Unicode) (n name : PStr) : Prop :=
  ∃ base, (n = base ++ py "Rule" ∨ (n = base ∧ ¬ ∃ b, n = b ++ py "Rule")) ∧ (base = name ∨ base = u.lower name)

/-- Some comment's first directive is bare or names the rule. -/
def Silences (u : Unicode) (comments : List PStr) (rule : PStr) : Prop :=
  ∃ comment ∈ comments, ∃ kw names, FirstDirective u comment kw names ∧ (names = none ∨ ∃ ns n, names = some ns ∧ n ∈ ns ∧ Names u n rule)

/-- The message of a report: the given one, or the rule's own when none or an empty one is given; never empty. -/
def MessageFor (given own : Option PStr) (m : PStr) : Prop :=
  m ≠ [] ∧ (given = some m ∨ ((given = none ∨ given = some []) ∧ own = some m))

end Spec
