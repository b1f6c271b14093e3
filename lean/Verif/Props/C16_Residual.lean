import Verif.Spec.Matrix
import Verif.Proofs.Elem
import Verif.Props.C15_Entry

/-!
# C16 – spmv and the & operator compute the residual A x - b
-/
namespace NeoFOAM
open Finset
variable {K : Type}

section proofs

theorem foldl_add_range' [AddCommMonoid K] (F : Nat → K) : ∀ (n a : Nat) (z : K),
    (List.range' a n).foldl (fun s p => s + F p) z = z + ∑ p ∈ Ico a (a + n), F p
  | 0, a, z => by simp
  | n + 1, a, z => by
    rw [List.range'_succ, List.foldl_cons, foldl_add_range' F n (a + 1)]
    rw [Finset.sum_eq_sum_Ico_succ_bot (show a < a + (n + 1) by omega), add_assoc]
    congr 3
    congr 1; omega

theorem rowSum_ok [AddCommGroup K] [Mul K] (A : CSR K) (x : List K) (a b : Nat) (hab : a ≤ b)
    (hv : b ≤ A.values.length) (hc : b ≤ A.colIdxs.length)
    (hx : ∀ p, a ≤ p → p < b → A.col p < x.length) :
    rowSum A x a b 0 = .ok (∑ p ∈ Ico a b, A.val p * x.getD (A.col p) 0) := by
  have := (foldlM_ok (fun _ => True) (fun sum p => do
    let v ← rd A.values p
    let c ← rd A.colIdxs p
    let y ← rd x c
    return sum + v * y) (fun sum p => sum + A.val p * x.getD (A.col p) 0)
    (List.range' a (b - a)) (0 : K) trivial (by
      intro s p hp _
      rw [List.mem_range'_1] at hp
      refine ⟨?_, trivial⟩
      rw [rd_getD (0 : K) (show p < A.values.length by omega)]
      simp only [Res.ok_bind]
      rw [rd_getD 0 (show p < A.colIdxs.length by omega)]
      simp only [Res.ok_bind]
      have h3 : rd x (A.colIdxs.getD p 0) = .ok (x.getD (A.col p) 0) := rd_getD (0 : K) (hx p (by omega) (by omega))
      rw [h3]
      rfl)).1
  rw [rowSum, this, foldl_add_range' (fun p => A.val p * x.getD (A.col p) 0), zero_add]
  congr 3; omega

theorem residualBody_ok [AddCommGroup K] [Mul K] (ls : LinearSystem K) (x : List K) (h : ls.matrix.WF)
    (hb : ls.rhs.length = ls.matrix.nRows)
    (hx : ∀ p < ls.matrix.colIdxs.length, ls.matrix.col p < x.length) (i : Nat) (hi : i < ls.matrix.nRows) :
    residualBody ls x i = .ok fun _ => ls.residual (fun c => x.getD c 0) i := by
  have hl := nRows_eq h
  have h1 : rd ls.matrix.rowOffs i = .ok (ls.matrix.rs i) := rd_getD 0 (by omega)
  have h2 : rd ls.matrix.rowOffs (i + 1) = .ok (ls.matrix.rs (i + 1)) := rd_getD 0 (by omega)
  have hlast := h.last (i + 1) (by omega)
  simp only [residualBody, h1, h2, Res.ok_bind]
  rw [rowSum_ok ls.matrix x _ _ (h.mono i hi) (by rw [h.len]; exact hlast) hlast
    (fun p _ hp => hx p (by omega)), rd_getD (0 : K) (show i < ls.rhs.length by omega)]
  rfl

end proofs

/-- **C16, spmv**: on every executor the only outcome is the list of residuals, one per row. -/
theorem C16_spmv [AddCommGroup K] [Mul K] (e : ExecKind) (ls : LinearSystem K) (x : List K) (h : ls.matrix.WF)
    (hb : ls.rhs.length = ls.matrix.nRows)
    (hx : ∀ p < ls.matrix.colIdxs.length, ls.matrix.col p < x.length) (out : Res (List K)) :
    spmv e ls x out ↔
      out = .ok ((List.range ls.matrix.nRows).map (ls.residual fun c => x.getD c 0)) := by
  unfold spmv
  rw [elemKernel_det e 0 ls.matrix.nRows _ (fun i _ => ls.residual (fun c => x.getD c 0) i)
    (List.replicate ls.rhs.length (0 : K)) (by simp [hb]) (fun i _ hi => residualBody_ok ls x h hb hx i hi)]
  have : ((List.replicate ls.rhs.length (0 : K)).mapIdx fun i y =>
      if 0 ≤ i ∧ i < ls.matrix.nRows then ls.residual (fun c => x.getD c 0) i else y)
      = (List.range ls.matrix.nRows).map (ls.residual fun c => x.getD c 0) := by
    apply List.ext_getElem
    · simp [hb]
    · intro i h1 h2
      simp at h1 h2
      simp [h2]
  rw [this]

/-- **C16, the & operator**: the same residuals, for a field with one value per row. -/
theorem C16_ampersand [AddCommGroup K] [Mul K] (e : ExecKind) (ls : LinearSystem K) (psi : List K)
    (h : ls.matrix.WF) (hb : ls.rhs.length = ls.matrix.nRows) (hp : psi.length = ls.matrix.nRows)
    (hx : ∀ p < ls.matrix.colIdxs.length, ls.matrix.col p < psi.length) (out : Res (List K)) :
    ampersand e ls psi out ↔
      out = .ok ((List.range ls.matrix.nRows).map (ls.residual fun c => psi.getD c 0)) := by
  unfold ampersand
  rw [elemKernel_det e 0 psi.length _ (fun i _ => ls.residual (fun c => psi.getD c 0) i)
    psi le_rfl (fun i _ hi => residualBody_ok ls psi h hb hx i (by omega))]
  have : (psi.mapIdx fun i y =>
      if 0 ≤ i ∧ i < psi.length then ls.residual (fun c => psi.getD c 0) i else y)
      = (List.range ls.matrix.nRows).map (ls.residual fun c => psi.getD c 0) := by
    apply List.ext_getElem
    · simp [hp]
    · intro i h1 h2
      simp at h1 h2
      simp [h1]
  rw [this]

/-- **C16, a column outside x** that some row stores makes spmv undefined (nothing else is promised). -/
theorem C16_out_of_range_undefined [AddCommGroup K] [Mul K] (e : ExecKind) (A : CSR K) (b x : List K)
    (h1 : A.rowOffs = [0, 1]) (h2 : A.colIdxs = [x.length]) (h3 : A.values.length = 1) (out : Res (List K)) :
    spmv e ⟨A, b⟩ x out ↔ out = .ub := by
  obtain ⟨v, hv⟩ := List.length_eq_one_iff.1 h3
  have hbody : residualBody ⟨A, b⟩ x 0 = .ub := by
    simp [residualBody, rowSum, h1, h2, hv, rd]
  have hmm : (List.range' 0 (A.nRows - 0)).mapM (residualBody ⟨A, b⟩ x) = .ub := by
    simp [CSR.nRows, h1, List.range', hbody]
  unfold spmv elemKernel
  refine Iff.trans (NR.bind_def _ _ _) ?_
  constructor
  · rintro ⟨r, hr, h⟩
    rw [show r = _ from hr, hmm] at h
    exact h
  · intro h
    refine ⟨_, rfl, ?_⟩
    rw [hmm]
    exact h

/-- **C16, reset**: all coefficients and the right hand side become zero, so the residual is zero. -/
theorem C16_reset [AddCommGroup K] (e : ExecKind) (ls : LinearSystem K) (out : Res (LinearSystem K)) :
    ls.reset e out ↔ out = .ok ⟨⟨List.replicate ls.matrix.values.length 0, ls.matrix.colIdxs,
      ls.matrix.rowOffs⟩, List.replicate ls.rhs.length 0⟩ := by
  have key : ∀ a : List K, (a.mapIdx fun i x => if 0 ≤ i ∧ i < a.length then (fun _ => (0:K)) x else x)
      = List.replicate a.length 0 := by
    intro a
    apply List.ext_getElem
    · simp
    · intro i h1 h2; simp at h1; simp [h1]
  unfold LinearSystem.reset
  refine Iff.trans (NR.bind_def _ _ _) ?_
  constructor
  · rintro ⟨r, hr, h⟩
    rw [elemKernel_det e 0 _ _ (fun _ _ => (0 : K)) _ le_rfl (fun _ _ _ => rfl), key] at hr
    subst hr
    obtain ⟨r, hr, h⟩ := h
    rw [elemKernel_det e 0 _ _ (fun _ _ => (0 : K)) _ le_rfl (fun _ _ _ => rfl), key] at hr
    subst hr
    exact h
  · intro h
    refine ⟨_, (elemKernel_det e 0 _ _ (fun _ _ => (0 : K)) _ le_rfl (fun _ _ _ => rfl) _).2 rfl, ?_⟩
    refine ⟨_, (elemKernel_det e 0 _ _ (fun _ _ => (0 : K)) _ le_rfl (fun _ _ _ => rfl) _).2 rfl, ?_⟩
    rw [key, key]; exact h

theorem val_replicate [Zero K] (n i : Nat) : (List.replicate n (0 : K)).getD i 0 = 0 := by
  by_cases h : i < n <;> simp [List.getD, h]

/-- **C16, empty systems of a mesh**: on every schedule the system created from a mesh's pattern exists,
is a valid matrix with one row per cell, and its residual is zero everywhere. -/
theorem C16_empty [Ring K] (m : Mesh K) (h : m.WF) (e : ExecKind) (sp : SparsityPattern)
    (hout : sparsityUpdate e m (.ok sp)) :
    ∃ ls : LinearSystem K, createEmptyLinearSystem sp = .ok ls ∧ ls.matrix.WF ∧
      ls.matrix.nRows = m.nCells ∧ ls.rhs.length = m.nCells ∧
      (∀ p < ls.matrix.colIdxs.length, ls.matrix.col p < m.nCells) ∧
      ∀ x i, ls.residual x i = 0 := by
  obtain ⟨sp', he, addr, hF⟩ := sparsity_facts h e _ hout
  cases he
  have hr : (⟨List.replicate sp.colIdxs.length (0 : K), sp.colIdxs, sp.rowPtrs⟩ : CSR K).nRows = m.nCells := by
    simp [CSR.nRows, hF.rows.len]
  have hmono : ∀ a b, a ≤ b → b ≤ m.nCells → sp.rowPtrs.getD a 0 ≤ sp.rowPtrs.getD b 0 := by
    intro a b hab hb
    obtain ⟨k, rfl⟩ := Nat.exists_eq_add_of_le hab
    induction k with
    | zero => exact le_rfl
    | succ k ih =>
      have h1 := ih (by omega) (by omega)
      have h2 := hF.rows.size (a + k) (by omega)
      have e1 : a + (k + 1) = a + k + 1 := by omega
      rw [e1]; omega
  refine ⟨⟨⟨List.replicate sp.colIdxs.length 0, sp.colIdxs, sp.rowPtrs⟩, List.replicate sp.diagOffset.length 0⟩,
    ?_, ⟨by simp [hF.rows.len], ?_, ?_, by simp⟩, hr, by simp [hF.dlen], ?_, ?_⟩
  · simp [createEmptyLinearSystem, LinearSystem.mk', hr, hF.dlen]
  · intro i hi
    rw [hr] at hi
    exact hmono i (i + 1) (by omega) (by omega)
  · intro i hi
    rw [hr] at hi
    have := hmono i m.nCells hi le_rfl
    rw [hF.rows.last] at this
    exact this
  · intro p hp
    obtain ⟨s, hs, hsp⟩ := hF.adr.surj p hp
    have hc := hF.adr.column s hs
    rw [hsp] at hc
    have : (sp.colIdxs.getD p 0) = s.col m := by simp [List.getD, hc]
    simp only [CSR.col]
    rw [this]
    cases s with
    | diag c => exact hs
    | upper f => exact h.nbr_lt f hs
    | lower f => exact h.own_lt_int hs
  · intro x i
    simp only [LinearSystem.residual, CSR.val, val_replicate, zero_mul, Finset.sum_const_zero, sub_zero]

/-- The hypotheses can be met: the three-row matrix of C15; residual of (1,2,3) against b = (0,0,1). -/
example : (⟨tri, [0, 0, 1]⟩ : LinearSystem ℚ).matrix.WF ∧
    (∀ p < tri.colIdxs.length, tri.col p < [(1:ℚ), 2, 3].length) ∧
    (⟨tri, [0, 0, 1]⟩ : LinearSystem ℚ).residual (fun c => [(1:ℚ), 2, 3].getD c 0) 2 = 3 := by
  refine ⟨⟨by decide, by decide, by decide, by decide⟩, by decide, ?_⟩
  have : Ico (tri.rs 2) (tri.rs 3) = {5, 6} := by decide
  simp only [LinearSystem.residual, this]
  simp [tri, CSR.val, CSR.col]
  norm_num

end NeoFOAM
