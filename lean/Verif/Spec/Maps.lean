import Verif.Model.Dictionary

/-!
# Specifications for dictionaries and token lists

These say in a few lines what a user expects; they do not use the model's containers.
-/
namespace NeoFOAM.Spec

/-- The key a mutating dictionary call is about. -/
def key : DictOp → String
  | .insert k _ => k
  | .remove k => k

/-- The value of `k` after a history, given its value before: decided by the last call about `k`. -/
def after (before : String → Option Any) (ops : List DictOp) (k : String) : Option Any :=
  match (ops.filter (fun o => key o = k)).getLast? with
  | none => before k
  | some (.insert _ v) => some v
  | some (.remove _) => none

/-- Value of `k` in an initialiser list: the first pair with that key. -/
def firstOf (l : List (String × Any)) (k : String) : Option Any :=
  (l.find? (fun p => p.1 = k)).map Prod.snd

/-- The tokens appended by a history, in order. -/
def appended : List TokOp → List Any
  | [] => []
  | .insert v :: ops => v :: appended ops
  | _ :: ops => appended ops

/-- A history that never calls `popFront`. -/
def noPop (ops : List TokOp) : Prop := ∀ ty, TokOp.popFront ty ∉ ops

/-- A history that never calls `next`. -/
def noNext (ops : List TokOp) : Prop := ∀ ty, TokOp.next ty ∉ ops

end NeoFOAM.Spec
