import Verif.Model.SunVector

/-!
# What a wrapper of a vector should be: a value
-/
namespace NeoFOAM
open Function

variable {K : Type}

/-- A wrapper as its user sees it: which executor's memory, and the values, if it has been initialised. -/
structure VecValue (K : Type) where
  kind : Exec
  data : Option (List K)

/-- The meaning of an operation if wrappers are values. `copies` says what a copy holds; a wrapper that was moved from holds nothing until it is initialised again. A use
that makes no sense – an object that does not exist, no data, the wrong executor, more values than the vector has – is `.ub`. -/
def SunOp.meaning [Zero K] (copies : Option (List K) → Option (List K)) (s : Nat → Option (VecValue K)) : SunOp K → Res (Option (List K) × (Nat → Option (VecValue K)))
  | .new i => if s i = none then .ok (none, update s i (some ⟨.cpu, none⟩)) else .ub
  | .setExecutor i e => if s i = none then .ub else .ok (none, update s i (some ⟨e, none⟩))
  | .initNVector i n =>
    match s i with
    | some v => .ok (none, update s i (some ⟨v.kind, some (List.replicate n 0)⟩))
    | none => .ub
  | .copy i j =>
    match s i with
    | some v => if s j = none then .ok (none, update s j (some ⟨v.kind, copies v.data⟩)) else .ub
    | none => .ub
  | .move i j =>
    match s i with
    | some v => if s j = none then .ok (none, update (update s j (some v)) i (some ⟨v.kind, none⟩)) else .ub
    | none => .ub
  | .destroy i => if s i = none then .ub else .ok (none, update s i none)
  | .write i e field =>
    match s i with
    | some ⟨k, some d⟩ => if k = e ∧ field.length ≤ d.length then .ok (none, update s i (some ⟨k, some (field ++ d.drop field.length)⟩)) else .ub
    | _ => .ub
  | .read i e n =>
    match s i with
    | some ⟨k, some d⟩ => if k = e ∧ n ≤ d.length then .ok (some (d.take n), s) else .ub
    | _ => .ub

/-- What the reads of a program should return. -/
def sunMeaning [Zero K] (copies : Option (List K) → Option (List K)) : List (SunOp K) → (Nat → Option (VecValue K)) → Res (List (List K))
  | [], _ => .ok []
  | o :: ops, s => do
    let (r, s) ← o.meaning copies s
    let rs ← sunMeaning copies ops s
    return r.toList ++ rs

end NeoFOAM
