import Verif.Spec.BundledMessages
import Verif.Props.BundledMain

/-!
# C121: the texts of the bundled rules' messages
-/

namespace Spec
open Py Cst

/-- The name of the class. -/
def bundledClass : Bundled → PStr
  | .avoidOrInExcept => py "AvoidOrInExcept"
  | .collapseIsinstanceChecks => py "CollapseIsinstanceChecks"
  | .useClsInClassmethod => py "UseClsInClassmethod"
  | .comparePrimitivesByEqual => py "ComparePrimitivesByEqual"
  | .compareSingletonPrimitivesByIs => py "CompareSingletonPrimitivesByIs"
  | .deprecatedABCImport => py "DeprecatedABCImport"
  | .deprecatedUnittestAsserts => py "DeprecatedUnittestAsserts"
  | .explicitFrozenDataclass => py "ExplicitFrozenDataclass"
  | .useLintFixmeComment => py "UseLintFixmeComment"
  | .noAssertTrueForComparisons => py "NoAssertTrueForComparisons"
  | .noInheritFromObject => py "NoInheritFromObject"
  | .noNamedTuple => py "NoNamedTuple"
  | .noRedundantArgumentsSuper => py "NoRedundantArgumentsSuper"
  | .noRedundantFString => py "NoRedundantFString"
  | .noRedundantLambda => py "NoRedundantLambda"
  | .noRedundantListComprehension => py "NoRedundantListComprehension"
  | .noStaticIfCondition => py "NoStaticIfCondition"
  | .noStringTypeAnnotation => py "NoStringTypeAnnotation"
  | .replaceUnionWithOptional => py "ReplaceUnionWithOptional"
  | .rewriteToComprehension => py "RewriteToComprehension"
  | .rewriteToLiteral => py "RewriteToLiteral"
  | .sortedAttributes => py "SortedAttributes"
  | .useAssertIn => py "UseAssertIn"
  | .useAssertIsNotNone => py "UseAssertIsNotNone"
  | .useAsyncSleepInAsyncDef => py "UseAsyncSleepInAsyncDef"
  | .useFstring => py "UseFstring"
  | .useTypesFromTyping => py "UseTypesFromTyping"

end Spec

namespace Cst
open Py Spec

/-- C121: the message of each rule class is the `MESSAGE` in its source. -/
theorem C121_messages (b : Bundled) : (bundledClass b, b.message) ∈ ruleMessages := by
  cases b <;> decide

/-- C121: every class in the source is modelled. -/
theorem C121_all_classes (n : PStr) (m : Option PStr) (h : (n, m) ∈ ruleMessages) : ∃ b : Bundled, bundledClass b = n ∧ b.message = m := by
  simp only [ruleMessages, List.mem_cons, Prod.mk.injEq, List.not_mem_nil, or_false] at h
  rcases h with ⟨rfl, rfl⟩ | ⟨rfl, rfl⟩ | ⟨rfl, rfl⟩ | ⟨rfl, rfl⟩ | ⟨rfl, rfl⟩ | ⟨rfl, rfl⟩ | ⟨rfl, rfl⟩ | ⟨rfl, rfl⟩ | ⟨rfl, rfl⟩ | ⟨rfl, rfl⟩ | ⟨rfl, rfl⟩ | ⟨rfl, rfl⟩ | ⟨rfl, rfl⟩ | ⟨rfl, rfl⟩ | ⟨rfl, rfl⟩ | ⟨rfl, rfl⟩ | ⟨rfl, rfl⟩ | ⟨rfl, rfl⟩ | ⟨rfl, rfl⟩ | ⟨rfl, rfl⟩ | ⟨rfl, rfl⟩ | ⟨rfl, rfl⟩ | ⟨rfl, rfl⟩ | ⟨rfl, rfl⟩ | ⟨rfl, rfl⟩ | ⟨rfl, rfl⟩ | ⟨rfl, rfl⟩
  · exact ⟨.avoidOrInExcept, rfl, rfl⟩
  · exact ⟨.collapseIsinstanceChecks, rfl, rfl⟩
  · exact ⟨.useClsInClassmethod, rfl, rfl⟩
  · exact ⟨.comparePrimitivesByEqual, rfl, rfl⟩
  · exact ⟨.compareSingletonPrimitivesByIs, rfl, rfl⟩
  · exact ⟨.deprecatedABCImport, rfl, rfl⟩
  · exact ⟨.deprecatedUnittestAsserts, rfl, rfl⟩
  · exact ⟨.explicitFrozenDataclass, rfl, rfl⟩
  · exact ⟨.useLintFixmeComment, rfl, rfl⟩
  · exact ⟨.noAssertTrueForComparisons, rfl, rfl⟩
  · exact ⟨.noInheritFromObject, rfl, rfl⟩
  · exact ⟨.noNamedTuple, rfl, rfl⟩
  · exact ⟨.noRedundantArgumentsSuper, rfl, rfl⟩
  · exact ⟨.noRedundantFString, rfl, rfl⟩
  · exact ⟨.noRedundantLambda, rfl, rfl⟩
  · exact ⟨.noRedundantListComprehension, rfl, rfl⟩
  · exact ⟨.noStaticIfCondition, rfl, rfl⟩
  · exact ⟨.noStringTypeAnnotation, rfl, rfl⟩
  · exact ⟨.replaceUnionWithOptional, rfl, rfl⟩
  · exact ⟨.rewriteToComprehension, rfl, rfl⟩
  · exact ⟨.rewriteToLiteral, rfl, rfl⟩
  · exact ⟨.sortedAttributes, rfl, rfl⟩
  · exact ⟨.useAssertIn, rfl, rfl⟩
  · exact ⟨.useAssertIsNotNone, rfl, rfl⟩
  · exact ⟨.useAsyncSleepInAsyncDef, rfl, rfl⟩
  · exact ⟨.useFstring, rfl, rfl⟩
  · exact ⟨.useTypesFromTyping, rfl, rfl⟩

/-- C121: what a report without a message of its own shows is the text in the source. -/
theorem C121_default_message {L : Looks} {t : Syn} (hl : LooksRight L t) (meta_ : Store) (b : Bundled) {reps : List Rep} (h : (bundled L b).alone meta_ t = .ok reps) (rep : Rep)
    (hr : rep ∈ reps) (hn : rep.message = none) : ∃ s, s ≠ [] ∧ (bundledClass b, some s) ∈ ruleMessages := by
  rcases C121_message hl meta_ b h rep hr with ⟨s, h1, -⟩ | ⟨-, -, s, hs, hm⟩
  · rw [hn] at h1; cases h1
  · exact ⟨s, hs, hm ▸ C121_messages b⟩

end Cst
