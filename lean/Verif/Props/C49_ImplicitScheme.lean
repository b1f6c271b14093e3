import Verif.Props.C48_Schemes
import Verif.Props.C19_ImplicitDiv

/-!
# C49 – the implicit divergence uses the interpolation selected for it

It does not: the assembled matrix is the upwind one whatever the scheme dictionary says (`C49_violation`). For the upwind
scheme the claim holds.
-/
namespace NeoFOAM
variable {K : Type} [Field K] [LinearOrder K]

/-- Face values of the cell values `x` under a scheme, with the boundary values the implicit operator takes: on boundary face
`b` the value fraction mixes the reference value and the cell value. -/
def VolField.impSchemeFace (sch : InterpScheme) (φ : VolField K K) (m : Mesh K) (w flux x : Nat → K) (f : Nat) : K :=
  if f < m.nInternalFaces then match sch with
    | .linear => w f * x (m.own f) + (1 - w f) * x (m.nbr f)
    | .upwind => if 0 ≤ flux f then x (m.own f) else x (m.nbr f)
  else ix φ.bVF (f - m.nInternalFaces) * ix φ.bRefValue (f - m.nInternalFaces)
    + (1 - ix φ.bVF (f - m.nInternalFaces)) * x (m.fc (f - m.nInternalFaces))

/-- The operator behind a handle after building the expression: the divergence with the named scheme. -/
theorem built_div {m : Mesh K} {φ : TimeState K K → VolField K K} (st : TimeState K K) {w flux : List K} (sch : InterpScheme)
    {c : Coeff K} (e : ExecKind) (sp : SparsityPattern) (junk : Nat → K) (f p : String) (type : OpType) (d : Dict) (rest : List Any)
    (hd : d.words "divSchemes" ("div(" ++ f ++ "," ++ p ++ ")") = some (.str "Gauss" :: .str sch.word :: rest))
    (eqn : Expr) (heap heap' : TermHeap K K) (hb : eqn.build d heap = .ok heap') (h : Nat) (hmem : h ∈ eqn.spatial)
    (hh : heap[h]? = some (divTerm e m sp w junk f p flux φ type c)) :
    (heap'.ops st)[h]? = some (divOp e m sp (some sch) w junk flux (φ st) type c) := by
  obtain ⟨-, hin, -⟩ := (C48_build eqn d heap heap').1 hb
  obtain ⟨t0, s, ht0, hu, h'⟩ := hin h (List.mem_append_right _ hmem)
  rw [hh] at ht0
  cases ht0
  obtain ⟨i, rest', rfl, hw'⟩ := hu
  have hi : i = sch := by
    have hw' := hd.symm.trans hw'
    have : sch.word = i.word := by injection hw' with hw'; injection hw' with _ hw'; injection hw' with hw' _; injection hw'
    cases sch <;> cases i <;> simp_all [InterpScheme.word]
  subst hi
  simp only [TermHeap.ops, List.getElem?_map, h', Option.map_some]
  rfl

/-- **C49, what is assembled**: whatever scheme the dictionary names for an implicit divergence of the expression, its
assembly adds to `(A x - b)_c` the scaled net outflow of flux times the *upwind* face values. -/
theorem C49_always_upwind {m : Mesh K} (hm : m.WF) {sp : SparsityPattern} (hp : sp.For m) {φ : TimeState K K → VolField K K}
    {st : TimeState K K} (hφ : (φ st).On m) {w flux : List K} (hfl : flux.length = m.nFaces) (sch : InterpScheme)
    {c : Coeff K} {s : Nat → K} (hc : c.On m.nCells s) (e : ExecKind) (he : e = .serial ∨ m.BndDistinct) (junk : Nat → K) (f p : String)
    (d : Dict) (rest : List Any)
    (hd : d.words "divSchemes" ("div(" ++ f ++ "," ++ p ++ ")") = some (.str "Gauss" :: .str sch.word :: rest))
    (eqn : Expr) (heap heap' : TermHeap K K) (hb : eqn.build d heap = .ok heap') (h : Nat) (hmem : h ∈ eqn.spatial)
    (hh : heap[h]? = some (divTerm e m sp w junk f p flux φ .implicit c)) :
    ∃ o, (heap'.ops st)[h]? = some o ∧ ∀ t dt (ls : LinearSystem K), ls.On sp m → ∀ out, implStep t dt ls o out →
      ∃ ls', out = .ok ls' ∧ ls'.On sp m ∧ ∀ (x : Nat → K), ∀ i < m.nCells, ls'.residual x i = ls.residual x i
        + s i * m.netOutflow (fun y => ix flux y * (φ st).impSchemeFace .upwind m (ix w) (ix flux) x y) i := by
  refine ⟨_, built_div st sch e sp junk f p .implicit d rest hd eqn heap heap' hb h hmem hh, ?_⟩
  intro t dt ls ho out hout
  exact C19_system_partial hm hp hφ hfl hc e he ls ho out hout

/-- **C49 for the upwind scheme**: when the dictionary names `upwind`, the face values are those of the selected scheme.
Missing: `linear` (`C49_violation`), and parallel assembly when two boundary faces share a cell (C22). -/
theorem C49_upwind_partial {m : Mesh K} (hm : m.WF) {sp : SparsityPattern} (hp : sp.For m) {φ : TimeState K K → VolField K K}
    {st : TimeState K K} (hφ : (φ st).On m) {w flux : List K} (hfl : flux.length = m.nFaces) (sch : InterpScheme) (hu : sch = .upwind)
    {c : Coeff K} {s : Nat → K} (hc : c.On m.nCells s) (e : ExecKind) (he : e = .serial ∨ m.BndDistinct) (junk : Nat → K) (f p : String)
    (d : Dict) (rest : List Any)
    (hd : d.words "divSchemes" ("div(" ++ f ++ "," ++ p ++ ")") = some (.str "Gauss" :: .str sch.word :: rest))
    (eqn : Expr) (heap heap' : TermHeap K K) (hb : eqn.build d heap = .ok heap') (h : Nat) (hmem : h ∈ eqn.spatial)
    (hh : heap[h]? = some (divTerm e m sp w junk f p flux φ .implicit c)) :
    ∃ o, (heap'.ops st)[h]? = some o ∧ ∀ t dt (ls : LinearSystem K), ls.On sp m → ∀ out, implStep t dt ls o out →
      ∃ ls', out = .ok ls' ∧ ls'.On sp m ∧ ∀ (x : Nat → K), ∀ i < m.nCells, ls'.residual x i = ls.residual x i
        + s i * m.netOutflow (fun y => ix flux y * (φ st).impSchemeFace sch m (ix w) (ix flux) x y) i := by
  have := C49_always_upwind hm hp hφ hfl sch hc e he junk f p d rest hd eqn heap heap' hb h hmem hh
  subst hu
  exact this

/-- Fluxes along the row `0 → 1 → 2`. -/
def rowFlux : List ℚ := [1, 1, 0, 0]

/-- A dictionary that names `linear` for the divergence. -/
def linearSchemes : Dict := [("divSchemes", .dict [("div(phi,U)", .tokens [.str "Gauss", .str "linear"] 0)])]

/-- **C49 fails for `linear`**: on three cells in a row, with the dictionary naming `linear` (weights one half), every assembly
of the implicit divergence gives the upwind matrix instead. -/
theorem C49_violation : ∃ (sp : SparsityPattern) (heap' : TermHeap ℚ ℚ) (o : OpModel ℚ ℚ) (ls ls' : LinearSystem ℚ) (x : Nat → ℚ),
    sp.For row3 ∧ ls.On sp row3 ∧
    (⟨[], [0]⟩ : Expr).build linearSchemes [divTerm .serial row3 sp [1/2, 1/2, 1, 1] (fun _ => 0) "phi" "U" rowFlux
      (fun st => st.sol) .implicit Coeff.default] = .ok heap' ∧
    (heap'.ops ⟨row3Field, none⟩)[0]? = some o ∧ implStep 0 0 ls o (.ok ls') ∧
    ls'.residual x 0 ≠ ls.residual x 0 + row3.netOutflow (fun y => ix rowFlux y *
      row3Field.impSchemeFace .linear row3 (ix [1/2, 1/2, 1, 1]) (ix rowFlux) x y) 0 := by
  obtain ⟨sp, -, hp, ls, -, ho, -⟩ := exists_system row3 row3_wf row3_deg .serial
  obtain ⟨out, hout⟩ := computeDivImp_runs .serial row3 sp rowFlux row3Field Coeff.default ls
  obtain ⟨ls', rfl, -, hres⟩ := C19_system_partial row3_wf hp row3Field_on (flux := rowFlux) rfl
    (s := fun _ => 1) (fun c _ => rfl) .serial (Or.inl rfl) ls ho _ hout
  refine ⟨sp, _, _, ls, ls', fun i => if i = 0 then 1 else 0, hp, ho, rfl, rfl, hout, ?_⟩
  rw [hres _ 0 (show 0 < 3 by omega)]
  simp [Mesh.netOutflow, Finset.sum_range_succ, VolField.impFace, VolField.impSchemeFace, ix, row3, topoMesh,
      rowFlux, row3Field, Mesh.fc, Mesh.own, Mesh.nbr]
  try norm_num

/-- The hypotheses of the upwind case can be met. -/
example : ∃ (sp : SparsityPattern) (heap' : TermHeap ℚ ℚ), sp.For row3 ∧
    exampleSchemes.words "divSchemes" ("div(" ++ "phi" ++ "," ++ "U" ++ ")") = some [.str "Gauss", .str "upwind"] ∧
    (⟨[], [0]⟩ : Expr).build exampleSchemes [divTerm .serial row3 sp [1/2, 1/2, 1, 1] (fun _ => 0) "phi" "U" rowFlux
      (fun st => st.sol) .implicit Coeff.default] = .ok heap' := by
  obtain ⟨sp, -, hp, -⟩ := exists_system row3 row3_wf row3_deg .serial
  exact ⟨sp, _, hp, rfl, rfl⟩

end NeoFOAM
