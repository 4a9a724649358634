/-! Small list notions used in property statements. Independent of the model. -/
namespace Spec

/-- The elements at the odd positions (second, fourth, ...). -/
def everyOther {α : Type} : List α → List α
  | [] => []
  | [_] => []
  | _ :: b :: r => b :: everyOther r

end Spec
