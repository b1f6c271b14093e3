import Verif.Model.AssemblyV
import Verif.Spec.Solve

/-!
# Specification: the components of vector fields
-/
namespace NeoFOAM
variable {K V W : Type}

/-- The component of a vector. -/
def vecComp (i : Fin 3) (v : Vec K) : K :=
  match i with
  | 0 => v.1
  | 1 => v.2.1
  | 2 => v.2.2

/-- The field whose values are the images of the values. -/
def VolField.map (h : V → W) (φ : VolField K V) : VolField K W :=
  ⟨φ.internal.map h, φ.bValue.map h, φ.bRefValue.map h, φ.bVF, φ.bRefGrad.map h⟩

def VolBCKind.map (h : V → W) : VolBCKind V → VolBCKind W
  | .fixedValue v => .fixedValue (h v)
  | .fixedGradient g => .fixedGradient (h g)
  | .extrapolated => .extrapolated
  | .calculated => .calculated
  | .empty => .empty

/-- The same condition for the images. -/
def VolumeBoundary.map (h : V → W) (b : VolumeBoundary V) : VolumeBoundary W := ⟨b.patch, b.kind.map h⟩

def LinearSystem.map (h : V → W) (ls : LinearSystem V) : LinearSystem W :=
  ⟨⟨ls.matrix.values.map h, ls.matrix.colIdxs, ls.matrix.rowOffs⟩, ls.rhs.map h⟩

def TimeState.map (h : V → W) (st : TimeState K V) : TimeState K W := ⟨st.sol.map h, st.old.map (·.map h)⟩

/-- The same term for the images. -/
def TermV.map (h : V → W) : TermV K V → TermV K W
  | .div t f of c => .div t f (of.map (·.map h)) c
  | .laplacian t g of c => .laplacian t g (of.map (·.map h)) c
  | .source t k of c => .source t k (of.map (·.map h)) c
  | .surface f c => .surface (f.map h) c
  | .ddt t c => .ddt t c

/-- `Y` can end exactly as `X` can, up to reading the result through `f`. -/
def NR.Seen {α β : Type} (f : α → β) (X : NR α) (Y : NR β) : Prop :=
  ∀ out, Y out ↔ ∃ o, X o ∧ out = o.bind fun a => .ok (f a)

/-- Writing an expression over given operators and evaluating its explicit terms into `src`. -/
def evalExplicit [Mul K] [One K] [Neg K] [Zero K] (tr : ExT K) (heap : OpHeap K V) (t dt : K) (src : List V) : NR (List V) := do
  let p ← NR.lift (tr.build heap)
  let r ← p.1.explicitOperation p.2 src
  p.1.explicitOperationT p.2 t dt r

/-- Writing an expression over given operators and assembling its implicit terms into `ls`. -/
def evalImplicit [Mul K] [One K] [Neg K] [Zero K] (tr : ExT K) (heap : OpHeap K V) (t dt : K) (ls : LinearSystem V) : NR (LinearSystem V) := do
  let p ← NR.lift (tr.build heap)
  let r ← p.1.implicitOperation p.2 ls
  p.1.implicitOperationT p.2 t dt r

end NeoFOAM
