import Verif.Base.Res

/-!
# Checked views (core/view.hpp), debug builds
-/
namespace NeoFOAM

/-- The members of `View` (core/view.hpp:20-67): the size of the span, `abort` and the mutable `failureIndex`. -/
structure DebugView where
  size : Nat
  abort : Bool := true
  failureIndex : Nat := 0
  deriving DecidableEq, Repr

/-- `operator[](index)` with `NF_DEBUG` (view.hpp:42-67): the program stops, or the view is as returned and the reference to
element `index` is handed out (also when there is no such element; the memory behind it is not modelled). -/
def DebugView.access (v : DebugView) (index : Nat) : Res DebugView :=
  if v.size ≤ index then
    if v.abort then .abort
    else .ok (if v.failureIndex = 0 then { v with failureIndex := index } else v)
  else .ok v

/-- A sequence of accesses through one view object.
(core/view.hpp:42-67) -/
def DebugView.accesses (v : DebugView) (l : List Nat) : Res DebugView := l.foldlM DebugView.access v

/-- A kernel captures the view by value (KOKKOS_LAMBDA is `[=]`): the accesses go through a copy; what the caller's view is
afterwards.
(core/view.hpp:42-67) -/
def DebugView.inKernel (v : DebugView) (l : List Nat) : Res DebugView := do
  let _copy ← v.accesses l
  return v

end NeoFOAM
