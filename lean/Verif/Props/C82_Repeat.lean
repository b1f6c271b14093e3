import Verif.Proofs.Repeat
import Verif.Proofs.BinFloat
import Verif.Props.C28_Boundary
import Verif.Props.C81_Rounding

/-!
# C82 – repeating a run gives bit for bit the same result

No law of arithmetic is used: the operations may be those of floating-point numbers.
-/
namespace NeoFOAM
variable {K V : Type} [Add K] [Sub K] [Mul K] [Div K] [Neg K] [Zero K] [One K] [Add V] [Sub V] [Zero V] [SMul K V]

theorem callOps_build [LinearOrder K] {m : Mesh K} (hm : m.WF) (sp : SparsityPattern) (sch : InterpScheme) (w δ : List K) (junk junk' : Nat → K)
    (calls : List (Call K)) (tr : ExT K) (st : TimeState K K) :
    Res.Rel (fun p q => q.1 = p.1 ∧ List.Forall₂ OpDet p.2 q.2) (tr.build (callOps ⟨.serial, m, sp, sch, w, δ, junk⟩ calls st))
      (tr.build (callOps ⟨.serial, m, sp, sch, w, δ, junk'⟩ calls st)) :=
  ExT.build_rel tr _ _ (callOps_serial hm sp sch w δ junk junk' calls st)

/-- **C82.** On the serial executor a program of this form always ends in the same way, whatever fresh memory holds: repeating it gives the same
result, bit for bit. -/
theorem C82_serial [LinearOrder K] (m : Mesh K) (hm : m.WF) (sch : InterpScheme) (w δ : List K) (calls : List (Call K)) (tr : ExT K)
    (bcs : List (VolumeBoundary K)) (table : SolverTable K) (ht : table.Repeatable) (fvSchemes fvSolution : Dict) (t dt : Nat → K) (n : Nat)
    (st : TimeState K K) :
    ∃ r, ∀ junk : Nat → Nat → K, NR.Is (solveLoop .serial m sch w δ junk calls tr bcs table fvSchemes fvSolution t dt n st) r := by
  have key : ∀ junk junk' : Nat → Nat → K, NR.Det (· = ·) (solveLoop .serial m sch w δ junk calls tr bcs table fvSchemes fvSolution t dt n st)
      (solveLoop .serial m sch w δ junk' calls tr bcs table fvSchemes fvSolution t dt n st) := by
    intro junk junk'
    unfold solveLoop
    refine .bindEq (sparsity_serial_det hm) fun sp => ?_
    refine NR.Det.foldlM (R := (· = ·)) (P := (· = ·)) (fun st st' k k' hs hk => ?_) (List.forall₂_same.2 fun _ _ => rfl) rfl
    subst hs; subst hk
    refine .bind (.lift (callOps_build hm sp sch w δ (junk k) (junk' k) calls tr st)) fun p q hpq => ?_
    rw [hpq.1]
    refine dslSolve_repeat (fun st' => ?_) p.1 hm bcs ht _ _ _ _ _
    have hb := callOps_build hm sp sch w δ (junk k) (junk' k) calls tr st'
    show List.Forall₂ OpDet (match tr.build (callOps ⟨.serial, m, sp, sch, w, δ, junk k⟩ calls st') with | .ok q => q.2 | _ => [])
      (match tr.build (callOps ⟨.serial, m, sp, sch, w, δ, junk' k⟩ calls st') with | .ok q => q.2 | _ => [])
    revert hb
    cases tr.build (callOps ⟨.serial, m, sp, sch, w, δ, junk k⟩ calls st') <;>
      cases tr.build (callOps ⟨.serial, m, sp, sch, w, δ, junk' k⟩ calls st') <;> intro hb <;> first | exact hb.elim | exact hb.2 | exact .nil
  obtain ⟨r, hr, -⟩ := (key (fun _ _ => 0) (fun _ _ => 0)).is_eq
  refine ⟨r, fun junk => ?_⟩
  obtain ⟨r', h1, h2⟩ := (key (fun _ _ => 0) junk).is_eq
  have : r' = r := (hr r').1 ((h1 r').2 rfl)
  exact this ▸ h2

/-- **C82.** So do the gradient and the explicit Laplacian, on scalars and vectors. -/
theorem C82_operators (m : Mesh K) (hm : m.WF) :
    (∀ (w : List K) (φ : VolField K K), ∃ r, ∀ junk junkV, NR.Is (grad .serial m w junk junkV φ) r) ∧
    (∀ (δ gamma : List K) (φ : VolField K V) (c : Coeff K) (src : List V), ∃ r, ∀ junk, NR.Is (laplacianExplicit .serial m true δ junk gamma φ c src) r) := by
  have pick : ∀ {α ι : Type} [Inhabited ι] (X : ι → NR α), (∀ i j, NR.Det (· = ·) (X i) (X j)) → ∃ r, ∀ i, NR.Is (X i) r := by
    intro α ι _ X h
    obtain ⟨r, hr, -⟩ := (h default default).is_eq
    refine ⟨r, fun i => ?_⟩
    obtain ⟨r', h1, h2⟩ := (h default i).is_eq
    have : r' = r := (hr r').1 ((h1 r').2 rfl)
    exact this ▸ h2
  constructor
  · intro w φ
    haveI : Inhabited ((Nat → K) × (Nat → Vec K)) := ⟨fun _ => 0, fun _ => (0, 0, 0)⟩
    obtain ⟨r, hr⟩ := pick (fun j : (Nat → K) × (Nat → Vec K) => grad .serial m w j.1 j.2 φ) fun i j => by
      refine .bindEq ?_ fun g => computeGrad_serial m w _ _ φ g
      have h := elemKernel_fresh .serial .serial (body := fun _ => .ok fun _ => (0 : Vec K)) (fun i f hf x y => by cases hf; rfl)
        (a := (List.range m.nCells).map i.2) (b := (List.range m.nCells).map j.2) (by simp)
      simpa using h
    exact ⟨r, fun junk junkV => hr (junk, junkV)⟩
  · intro δ gamma φ c src
    haveI : Inhabited (Nat → V) := ⟨fun _ => 0⟩
    exact pick (fun junk => laplacianExplicit .serial m true δ junk gamma φ c src) fun i j => laplacianExplicit_serial hm _ _ _ _ _ _ _ _

/-- **C82.** What is done face by face or cell by cell gives the same bits on every executor: interpolation, face-normal gradients, source
terms, explicit time derivatives, and the boundary conditions. -/
theorem C82_everywhere [LinearOrder K] (m : Mesh K) (hm : m.WF) :
    (∀ (s : InterpScheme) (w flux : List K) (φ : VolField K V), ∃ r, ∀ e (dst : List V), dst.length = m.nFaces → NR.Is (interpolateFlux s e m w flux φ dst) r) ∧
    (∀ (φ : VolField K V) (δ : List K), ∃ r, ∀ e (dst : List V), dst.length = m.nFaces → NR.Is (computeFaceNormalGrad e m φ δ dst) r) ∧
    (∀ (k : List K) (φ : VolField K V) (c : Coeff K) (src : List V), ∃ r, ∀ e, NR.Is (sourceExplicit e k φ c src) r) ∧
    (∀ (φ : VolField K V) (old : List V) (c : Coeff K) (dt : K) (src : List V), ∃ r, ∀ e, NR.Is (ddtExplicit e m φ old c dt src) r) ∧
    (∀ (bcs : List (VolumeBoundary V)) (φ : VolField K V), φ.On m → (∀ b ∈ bcs, b.patch.end_ ≤ m.nBoundaryFaces) →
      ∃ φ', ∀ e, NR.Is (correctBoundaryConditions e m bcs φ) (.ok φ')) := by
  have pick : ∀ {α ι : Type} (i₀ : ι) (X : ι → NR α), (∀ i j, NR.Det (· = ·) (X i) (X j)) → ∃ r, ∀ i, NR.Is (X i) r := by
    intro α ι i₀ X h
    obtain ⟨r, hr, -⟩ := (h i₀ i₀).is_eq
    refine ⟨r, fun i => ?_⟩
    obtain ⟨r', h1, h2⟩ := (h i₀ i).is_eq
    have : r' = r := (hr r').1 ((h1 r').2 rfl)
    exact this ▸ h2
  have d₀ : {dst : List V // dst.length = m.nFaces} := ⟨List.replicate m.nFaces 0, by simp⟩
  refine ⟨fun s w flux φ => ?_, fun φ δ => ?_, fun k φ c src => ?_, fun φ old c dt src => ?_, fun bcs φ hφ hb => ?_⟩
  · obtain ⟨r, hr⟩ := pick (ExecKind.serial, d₀) (fun j : ExecKind × {dst : List V // dst.length = m.nFaces} => interpolateFlux s j.1 m w flux φ j.2.1)
      fun i j => interpolateFlux_any _ _ _ _ _ _ _ (i.2.2.trans j.2.2.symm)
    exact ⟨r, fun e dst hd => hr (e, ⟨dst, hd⟩)⟩
  · have hf := hm.faces
    obtain ⟨r, hr⟩ := pick (ExecKind.serial, d₀) (fun j : ExecKind × {dst : List V // dst.length = m.nFaces} => computeFaceNormalGrad j.1 m φ δ j.2.1)
      fun i j => fng_any _ _ _ _ _ (i.2.2.trans j.2.2.symm) (by have := i.2.2; omega)
    exact ⟨r, fun e dst hd => hr (e, ⟨dst, hd⟩)⟩
  · exact pick ExecKind.serial (fun e => sourceExplicit e k φ c src) fun i j => sourceExplicit_any _ _ _ _ _ _
  · exact pick ExecKind.serial (fun e => ddtExplicit e m φ old c dt src) fun i j => ddtExplicit_any _ _ _ _ _ _ _ _
  · obtain ⟨o, ho⟩ := correctAll_runs .serial m bcs φ
    obtain ⟨φ', rfl, h1, h2, h3⟩ := correctAll_ok .serial m hm bcs φ hφ hb o ho
    refine ⟨φ', fun e => NR.iff_of_ok_runs ((correctAll_ok e m hm bcs φ hφ hb).mono fun ψ h => ?_) (correctAll_runs e m bcs φ)⟩
    exact VolField.ext_entry h.1 h1 (h.2.1.trans h2.symm) fun b hbb => (h.2.2 b hbb).trans (h3 b hbb).symm

/-! ### The sums over faces -/

/-- One cell with three boundary faces, in floating point. -/
def floatCell3 (p : Nat) : Mesh (BinFloat p) := (topoMesh 1 [] [] [0, 0, 0]).exact fun x => if x = 0 then 0 else 1
theorem floatCell3_wf (p : Nat) : (floatCell3 p).WF := exact_wf (topoMesh_wf 1 [] [] [0, 0, 0] rfl (by decide) (by decide) (by decide) (by decide))

/-- **C82 fails for the sums over faces on the other executors**: the atomic additions come in any order, and adding in floating point is not
associative. For every precision the net outflow of one and the same cell can come out as 0 and as 1, without any fault in the data. -/
theorem C82_atomic (p : Nat) (hp : 0 < p) : ∃ (m : Mesh (BinFloat p)) (flux : List (BinFloat p)), m.WF ∧ flux.length = m.nFaces ∧
    surfaceIntegrateExplicit .parallel m flux (Coeff.ofScalar 1) [0] (.ok [0]) ∧
    surfaceIntegrateExplicit .parallel m flux (Coeff.ofScalar 1) [0] (.ok [1]) := by
  let B := BinFloat.pow2 p (p + 1)
  have hsub : B + -B = 0 := BinFloat.ext (by
    rw [BinFloat.add_val, show (-B).1 = -B.1 from rfl, add_neg_cancel]; simp [roundBin]; rfl)
  have habs : B + 1 = B := BinFloat.absorb hp
  have tail : ∀ x : BinFloat p, (launch1 .parallel 0 3 (gaussBoundary (floatCell3 p) (rd [B, 1, -B])) [0]) (.ok [x]) →
      surfaceIntegrateExplicit .parallel (floatCell3 p) [B, 1, -B] (Coeff.ofScalar 1) [0] (.ok [x]) := by
    intro x hx
    refine ⟨.ok [x], ?_, ?_⟩
    · refine ⟨.ok [0], ⟨.ok fun _ => [0], ⟨.ok ⟨fun _ => [0], fun _ => none⟩, ⟨[], Interleave.done [] (by simp), rfl⟩, rfl⟩, rfl⟩, ?_⟩
      refine ⟨.ok [x], hx, ?_⟩
      refine (elemKernel_det .parallel 0 1 _ (fun _ y => (1 / 1 : BinFloat p) • y) [x] le_rfl (fun i _ hi => ?_) _).2 ?_
      · obtain rfl : i = 0 := by omega
        rfl
      · simp only [List.mapIdx_cons, List.mapIdx_nil]
        rw [if_pos ⟨le_rfl, Nat.one_pos⟩, BinFloat.div_one hp, smul_eq_mul, BinFloat.one_mul hp]
    · refine (elemKernel_det .parallel 0 1 _ (fun _ y => y + x) [0] le_rfl (fun i _ hi => ?_) _).2 ?_
      · obtain rfl : i = 0 := by omega
        rfl
      · simp only [List.mapIdx_cons, List.mapIdx_nil]
        rw [if_pos ⟨le_rfl, Nat.one_pos⟩, BinFloat.zero_add hp]
  have step : ∀ (l : List (Act Unit (BinFloat p))) (x : BinFloat p),
      Interleave [[Act.atomicAdd () 0 B], [Act.atomicAdd () 0 1], [Act.atomicAdd () 0 (-B)]] l →
      runActs Mem.step (⟨fun _ => [0], fun _ => none⟩ : Mem Unit (BinFloat p)) l = .ok ⟨fun _ => [x], fun _ => none⟩ →
      (launch1 .parallel 0 3 (gaussBoundary (floatCell3 p) (rd [B, 1, -B])) [0]) (.ok [x]) := by
    intro l x hl hr
    refine ⟨.ok fun _ => [x], ⟨.ok ⟨fun _ => [x], fun _ => none⟩, ⟨l, hl, ?_⟩, rfl⟩, rfl⟩
    rw [hr]
    rfl
  have i3 : ∀ (a b c : Act Unit (BinFloat p)), Interleave [[a], [b], [c]] [a, b, c] ∧ Interleave [[a], [b], [c]] [a, c, b] := fun a b c =>
    ⟨.step [] a [] [[b], [c]] _ (.step [[]] b [] [[c]] _ (.step [[], []] c [] [] _ (.done _ (by simp)))),
      .step [] a [] [[b], [c]] _ (.step [[], [b]] c [] [] _ (.step [[]] b [] [[]] _ (.done _ (by simp))))⟩
  refine ⟨floatCell3 p, [B, 1, -B], floatCell3_wf p, rfl, tail 0 (step _ 0 (i3 _ _ _).1 ?_), tail 1 (step _ 1 (i3 _ _ _).2 ?_)⟩
  · simp [Mem.step, Act.atomicAdd, Mem.setArr, List.modify, BinFloat.zero_add hp, habs, hsub]
  · simp [Mem.step, Act.atomicAdd, Mem.setArr, List.modify, BinFloat.zero_add hp, hsub]

/-! ### Cases that meet the hypotheses -/

/-- A solver that makes one Jacobi-like sweep in `double`s: it always ends in the same way. -/
def sweepTable : SolverTable (BinFloat 53) := [("sweep", fun _ ls x => NR.lift (.ok (List.zipWith (· + ·) x ls.rhs)))]
theorem sweepTable_repeatable : sweepTable.Repeatable := by
  intro name mk h d ls x
  unfold sweepTable AMap.find? at h
  split at h
  · cases h
    exact ⟨_, fun _ => Iff.rfl⟩
  · cases h

/-- `double`s in three cells: transport with implicit time derivative and diffusion, ten steps; the hypotheses of `C82_serial` are met. -/
example (sol : TimeState (BinFloat 53) (BinFloat 53)) (tr : ExT (BinFloat 53)) :
    ∃ r, ∀ junk, NR.Is (solveLoop .serial floatRow .linear [third, third, 1, 1] [1, 1, 1, 1] junk
      [.impDdt, .expDiv [1, third, -1, third] none, .impLaplacian [third, third, third, third] none] tr
      [⟨⟨0, 0, 2⟩, .fixedValue third⟩] sweepTable [("ddtSchemes", .dict [("type", .str "backwardEuler")]), ("solver", .str "sweep")] []
      (fun k => if k = 0 then 0 else third) (fun _ => third) 10 sol) r :=
  C82_serial _ floatRow_wf _ _ _ _ _ _ _ sweepTable_repeatable _ _ _ _ _ _

/-- Boundary conditions for the field of `double`s. -/
example : ∃ φ', ∀ e, NR.Is (correctBoundaryConditions e floatRow [⟨⟨0, 0, 1⟩, .fixedValue third⟩, ⟨⟨1, 1, 2⟩, .extrapolated⟩] floatRowField) (.ok φ') :=
  (C82_everywhere (V := BinFloat 53) floatRow floatRow_wf).2.2.2.2 _ _ floatRowField_on (by
    intro b hb
    have h2 : floatRow.nBoundaryFaces = 2 := rfl
    simp only [List.mem_cons, List.not_mem_nil, or_false] at hb
    rcases hb with rfl | rfl <;> rw [h2] <;> simp)

end NeoFOAM
