import Verif.Model.Cst

/-!
# Expressions as text

`render` is libCST's code generation (`Module.code_for_node`), as a list of tokens, for names, calls, tuples, `not`, `and`, `or` and
parentheses; every other expression is one opaque token. Every element of a tuple is followed by a comma (libCST leaves out the last one
when it can; the text reads the same). `Reads` is the part of Python's grammar for them ("disjunction", "conjunction",
"inversion", "primary"): which tree a reader gets from the text.
-/

namespace Cst
open Py

inductive Tok where
  | name (s : PStr)
  | open_ | close | comma | or | and | not | star | starstar | equals
  | opaque (e : Expr)

mutual
def render : Expr → List Tok
  | .name s => [.name s]
  | .call f args => render f ++ [.open_] ++ renderArgs args ++ [.close]
  | .bool .or l r => render l ++ [.or] ++ render r
  | .bool .and l r => render l ++ [.and] ++ render r
  | .not e => [.not] ++ render e
  | .tuple es => renderElems es
  | .paren e => [.open_] ++ render e ++ [.close]
  | e => [.opaque e]
def renderArgs : List Arg → List Tok
  | [] => []
  | .mk st kw e :: as =>
    (match st with | .none => [] | .one => [.star] | .two => [.starstar]) ++ (match kw with | none => [] | some k => [.name k, .equals]) ++
      render e ++ (if as.isEmpty then [] else [.comma]) ++ renderArgs as
def renderElems : List Elem → List Tok
  | [] => []
  | .plain e :: es => render e ++ [.comma] ++ renderElems es
  | .starred e :: es => [.star] ++ render e ++ [.comma] ++ renderElems es
end

/-- Levels of the grammar. -/
inductive Level where
  | disjunction | conjunction | inversion | primary

mutual
/-- The text, read as this nonterminal of the grammar, is this tree. -/
inductive Reads : Level → List Tok → Expr → Prop where
  | conjunction {ts e} : Reads .conjunction ts e → Reads .disjunction ts e
  | inversion {ts e} : Reads .inversion ts e → Reads .conjunction ts e
  | primary {ts e} : Reads .primary ts e → Reads .inversion ts e
  | or {tl tr l r} : Reads .disjunction tl l → Reads .conjunction tr r → Reads .disjunction (tl ++ [.or] ++ tr) (.bool .or l r)
  | and {tl tr l r} : Reads .conjunction tl l → Reads .inversion tr r → Reads .conjunction (tl ++ [.and] ++ tr) (.bool .and l r)
  | not {ts e} : Reads .inversion ts e → Reads .inversion ([.not] ++ ts) (.not e)
  | name {s} : Reads .primary [.name s] (.name s)
  | paren {ts e} : Reads .disjunction ts e → Reads .primary ([.open_] ++ ts ++ [.close]) (.paren e)
  | tuple {ts es} : ReadsElems ts es → Reads .primary ([.open_] ++ ts ++ [.close]) (.paren (.tuple es))
  | call {tf ta f args} : Reads .primary tf f → ReadsArgs ta args → Reads .primary (tf ++ [.open_] ++ ta ++ [.close]) (.call f args)

/-- Positional arguments. -/
inductive ReadsArgs : List Tok → List Arg → Prop where
  | nil : ReadsArgs [] []
  | last {ts e} : Reads .disjunction ts e → ReadsArgs ts [.pos e]
  | cons {ts us e as} : Reads .disjunction ts e → as ≠ [] → ReadsArgs us as → ReadsArgs (ts ++ [.comma] ++ us) (.pos e :: as)

inductive ReadsElems : List Tok → List Elem → Prop where
  | nil : ReadsElems [] []
  | cons {ts us e es} : Reads .disjunction ts e → ReadsElems us es → ReadsElems (ts ++ [.comma] ++ us) (.plain e :: es)
end

end Cst
