import Verif.Model.Reflect

/-!
Model of the text `Observe` returns, /repo/pkg/hindsight/hindsight.go:1111-1159. Texts and numbers are as in Model/Reflect.
-/
namespace Verif.Reflect

/-- An observation made by this call: content and confidence. -/
structure Made where
  content : List Char
  conf : ℚ
  deriving DecidableEq, Repr

/-- The line of a new observation, hindsight.go:1143. -/
def madeLine (f2 : ℚ → List Char) (o : Made) : List Char :=
  "- ".toList ++ o.content ++ " (confidence: ".toList ++ f2 o.conf ++ ")\n".toList

/-- `formatReflectContext`, hindsight.go:1112-1159. -/
def observeText (f2 : ℚ → List Char) (rs : List Shown) (made : List Made) (query : List Char) : List Char :=
  "# Reflection on: ".toList ++ query ++ "\n\n".toList ++
  part "## Known Facts\n" plainLine "\n" (ofType "world" rs) ++
  part "## Past Experiences\n" plainLine "\n" (ofType "bank" rs) ++
  (if made = [] then [] else "## New Insights\n".toList ++ made.flatMap (madeLine f2) ++ "\n".toList) ++
  part "## Existing Beliefs\n" plainLine "" (ofType "opinion" rs)

end Verif.Reflect
