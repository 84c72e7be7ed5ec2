import Verif.Py.Str

/-!
# The `MESSAGE` of every rule class, read from the source by `tools/gen_messages.py`
-/

namespace Spec
open Py

/-- Class name and `MESSAGE`, for the classes in rules/ and rules/extra/. -/
def ruleMessages : List (PStr × Option PStr) := [
  -- rules/avoid_or_in_except.py:70
  (py "AvoidOrInExcept", some (py "Avoid using 'or' in an except block. For example:'except ValueError or TypeError' only catches 'ValueError'. Instead, use parentheses, 'except (ValueError, TypeError)'")),
  -- rules/chained_instance_check.py:29
  (py "CollapseIsinstanceChecks", some (py "Multiple isinstance calls with the same target but different types can be collapsed into a single call with a tuple of types.")),
  -- rules/cls_in_classmethod.py:46
  (py "UseClsInClassmethod", some (py "When using @classmethod, the first argument must be `cls`.")),
  -- rules/compare_primitives_by_equal.py:18
  (py "ComparePrimitivesByEqual", some (py "Don't use `is` or `is not` to compare primitives, as they compare references. Use == or != instead.")),
  -- rules/compare_singleton_primitives_by_is.py:21
  (py "CompareSingletonPrimitivesByIs", some (py "Comparisons to singleton primitives should not be done with == or !=, as they check equality rather than identity. Use `is` or `is not` instead.")),
  -- rules/deprecated_abc_import.py:56
  (py "DeprecatedABCImport", some (py "ABCs must be imported from collections.abc")),
  -- rules/deprecated_unittest_asserts.py:19
  (py "DeprecatedUnittestAsserts", some (py "{deprecated} is deprecated, use {replacement} instead")),
  -- rules/extra/explicit_frozen_dataclass.py:23
  (py "ExplicitFrozenDataclass", some (py "When using dataclasses, explicitly specify a frozen keyword argument. Example: `@dataclass(frozen=True)` or `@dataclass(frozen=False)`. Docs: https://docs.python.org/3/library/dataclasses.html")),
  -- rules/extra/use_lint_fixme_comment.py:23
  (py "UseLintFixmeComment", some (py "noqa is deprecated. Use `lint-fixme` or `lint-ignore` instead.")),
  -- rules/no_assert_true_for_comparison.py:22
  (py "NoAssertTrueForComparisons", some (py "\"assertTrue\" does not compare its arguments, use \"assertEqual\" or other appropriate functions.")),
  -- rules/no_inherit_from_object.py:18
  (py "NoInheritFromObject", some (py "Inheriting from object is a no-op.  'class Foo:' is just fine =)")),
  -- rules/no_namedtuple.py:23
  (py "NoNamedTuple", some (py "Instead of NamedTuple, consider using the @dataclass decorator from dataclasses instead for simplicity, efficiency and consistency.")),
  -- rules/no_redundant_arguments_super.py:19
  (py "NoRedundantArgumentsSuper", some (py "Do not use arguments when calling super for the parent class. See https://www.python.org/dev/peps/pep-3135/")),
  -- rules/no_redundant_fstring.py:17
  (py "NoRedundantFString", some (py "f-string doesn't have placeholders, remove redundant f-string.")),
  -- rules/no_redundant_lambda.py:19
  (py "NoRedundantLambda", none),
  -- rules/no_redundant_list_comprehension.py:18
  (py "NoRedundantListComprehension", none),
  -- rules/no_static_if_condition.py:19
  (py "NoStaticIfCondition", some (py "Your if condition appears to evaluate to a static value (e.g. `or True`, `and False`). Please double check this logic and if it is actually temporary debug code.")),
  -- rules/no_string_type_annotation.py:23
  (py "NoStringTypeAnnotation", some (py "String type hints are no longer necessary in Python, use the type identifier directly.")),
  -- rules/replace_union_with_optional.py:18
  (py "ReplaceUnionWithOptional", some (py "`Optional[T]` is preferred over `Union[T, None]` or `Union[None, T]`. Learn more: https://docs.python.org/3/library/typing.html#typing.Optional")),
  -- rules/rewrite_to_comprehension.py:24
  (py "RewriteToComprehension", none),
  -- rules/rewrite_to_literal.py:25
  (py "RewriteToLiteral", none),
  -- rules/sorted_attributes_rule.py:76
  (py "SortedAttributes", some (py "It appears you are using the @sorted-attributes directive and the class variables are unsorted. See the lint autofix suggestion.")),
  -- rules/use_assert_in.py:20
  (py "UseAssertIn", some (py "Use assertIn/assertNotIn instead of assertTrue/assertFalse for inclusion check.\nSee https://docs.python.org/3/library/unittest.html#unittest.TestCase.assertIn)")),
  -- rules/use_assert_is_not_none.py:22
  (py "UseAssertIsNotNone", some (py "\"assertTrue\" and \"assertFalse\" are deprecated. Use \"assertIsNotNone\" and \"assertIsNone\" instead.\nSee https://docs.python.org/3.8/library/unittest.html#deprecated-aliases")),
  -- rules/use_async_sleep_in_async_def.py:16
  (py "UseAsyncSleepInAsyncDef", some (py "Use asyncio.sleep in async function")),
  -- rules/use_fstring.py:95
  (py "UseFstring", some (py "Do not use printf style formatting or .format(). Use f-string instead to be more readable and efficient. See https://www.python.org/dev/peps/pep-0498/")),
  -- rules/use_types_from_typing.py:24
  (py "UseTypesFromTyping", none)]

end Spec
