import Verif.Proofs.Solve
import Verif.Props.C22_AssemblySchedules

/-!
# C35 – setReference pins the level without changing the equation at the reference value
-/
namespace NeoFOAM
open Finset
variable {K : Type} [Field K] {m : Mesh K} {sp : SparsityPattern}

/-- What the residual of row `i` gains: only row `c` changes, by its diagonal coefficient times the distance to `v`. -/
theorem implicitResidual_ref (d v : K) (c : Nat) (x : Nat → K) (i : Nat) :
    implicitResidual m (diagDelta fun k => if k = c then d else 0) (fun k => if k = c then d * v else 0) x i
      = if i = c then d * (x c - v) else 0 := by
  simp only [implicitResidual, diagDelta, zero_mul, ite_self, Finset.sum_const_zero, add_zero]
  split
  · rename_i h; subst h; ring
  · ring

/-- **C35**: on every executor `setReference(c, v)` returns one and the same system, with the same structure, in which

* the diagonal of row `c` is doubled, every other coefficient is unchanged,
* the right hand side of row `c` is larger by (diagonal of `c`)·`v`, the others are unchanged,
* the residual of row `c` is larger by (diagonal of `c`)·(x_c - v), the others are unchanged — so values with `x_c = v`
  have the residual they had before. -/
theorem C35_setReference (e : ExecKind) (h : m.WF) (hp : sp.For m) (ls : LinearSystem K) (ho : ls.On sp m) (c : Nat) (hc : c < m.nCells) (v : K) :
    ∃ ls' : LinearSystem K, (∀ out, setReference e sp c v ls out ↔ out = .ok ls') ∧ ls'.On sp m ∧
      ls'.matrix.val (sp.addr m (.diag c)) = 2 * ls.matrix.val (sp.addr m (.diag c)) ∧
      (∀ s : Slot, s.Valid m → s ≠ .diag c → ls'.matrix.val (sp.addr m s) = ls.matrix.val (sp.addr m s)) ∧
      ls'.rhs.getD c 0 = ls.rhs.getD c 0 + ls.matrix.val (sp.addr m (.diag c)) * v ∧
      (∀ i < m.nCells, i ≠ c → ls'.rhs.getD i 0 = ls.rhs.getD i 0) ∧
      (∀ x, ls'.residual x c = ls.residual x c + ls.matrix.val (sp.addr m (.diag c)) * (x c - v)) ∧
      (∀ x, ∀ i < m.nCells, i ≠ c → ls'.residual x i = ls.residual x i) ∧
      ∀ x, x c = v → ∀ i < m.nCells, ls'.residual x i = ls.residual x i := by
  classical
  set d := ls.matrix.val (sp.addr m (.diag c)) with hd
  have hbody : ∀ i, c ≤ i → i < c + 1 → setReferenceBody sp ls v i
      = .ok (Act.plain i .rhs i (· + d * v) ++ Act.plain i .values (sp.addr m (.diag i)) (· + d)) := by
    intro i h1 h2
    obtain rfl : i = c := by omega
    have r1 : rd ls.matrix.rowOffs i = .ok (sp.rowPtrs.getD i 0) := rd_rowOffs hp ho hc
    have r2 : rd sp.diagOffset i = .ok (sp.diagOffset.getD i 0) := rd_getD 0 (by rw [hp.dlen]; exact hc)
    have r3 : rd ls.matrix.values (sp.rowPtrs.getD i 0 + sp.diagOffset.getD i 0) = .ok d := by
      refine rd_getD 0 ?_
      rw [ho.vals]
      exact hp.addr_lt h (show (Slot.diag i).Valid m from hc)
    unfold setReferenceBody
    rw [r1, r2]
    simp only [Res.ok_bind, r3]
    rfl
  have hok : (setReference e sp c v ls).Ok (fun ls' => Assembles m sp ls ls' (diagDelta fun k => if k = c then d else 0)
      (fun k => if k = c then d * v else 0)) := by
    refine (launchLS_ok h hp e c (c + 1) _ (fun i => Act.plain i .rhs i (· + d * v) ++ Act.plain i .values (sp.addr m (.diag i)) (· + d))
      (fun i a p => single LSArr.rhs i (d * v) a p + single LSArr.values (sp.addr m (.diag i)) d a p) ls ho hbody ?_ ?_).mono ?_
    · right
      apply threadsCommute_map List.nodup_range'
      intro i hi j hj hij
      rw [List.mem_range'_1] at hi hj
      omega
    · intro i h1 h2
      obtain rfl : i = c := by omega
      set n : LSArr → Nat := fun a => match a with | .values => sp.colIdxs.length | .rhs => m.nCells with hn
      exact (RunsAdd.plain (n := n) (a := .rhs) (v := d * v) hc (fun _ => rfl)).append
        (RunsAdd.plain (n := n) (a := .values) (v := d) (hp.addr_lt h (show (Slot.diag i).Valid m from hc)) (fun _ => rfl))
    · intro ls' ha
      refine ha.congr ?_ ?_
      · intro s hs
        have : c + 1 - c = 1 := by omega
        simp only [this, sum_range_one, Nat.add_zero, single, true_and, reduceCtorEq, false_and, if_false, zero_add]
        cases s with
        | diag k =>
          simp only [diagDelta]
          by_cases hk : k = c
          · rw [if_pos hk, if_pos (by rw [hk])]
          · rw [if_neg hk, if_neg (fun he => hk (by simpa using hp.adr.inj (.diag k) (.diag c) hs hc he))]
        | upper f => exact if_neg fun he => by simpa using hp.adr.inj (.upper f) (.diag c) hs hc he
        | lower f => exact if_neg fun he => by simpa using hp.adr.inj (.lower f) (.diag c) hs hc he
      · intro k _
        have : c + 1 - c = 1 := by omega
        simp [this, single]
  obtain ⟨ls', ha, hdet⟩ := Assembles.det hp hok (launchLS_runs _ _ _ _ _)
  have hres : ∀ x, ∀ i < m.nCells, ls'.residual x i = ls.residual x i + if i = c then d * (x c - v) else 0 := by
    intro x i hi
    rw [ha.implicit h hp ho x hi, implicitResidual_ref]
  refine ⟨ls', hdet, ha.on, ?_, ?_, ?_, ?_, ?_, ?_, ?_⟩
  · rw [ha.coef (.diag c) hc]
    simp [diagDelta]
    ring
  · intro s hs hne
    rw [ha.coef s hs]
    cases s with
    | diag k => simp [diagDelta, show k ≠ c from fun hk => hne (by rw [hk])]
    | upper f => simp [diagDelta]
    | lower f => simp [diagDelta]
  · rw [ha.rhs c hc, if_pos rfl]
  · intro i hi hne
    rw [ha.rhs i hi, if_neg hne, add_zero]
  · intro x
    rw [hres x c hc, if_pos rfl]
  · intro x i hi hne
    rw [hres x i hi, if_neg hne, add_zero]
  · intro x hx i hi
    rw [hres x i hi, hx]
    split <;> simp

/-- The hypotheses are met by the one-cell system `3·x = 5`. -/
example : cell1.WF ∧ cell1Pattern.For cell1 ∧ (⟨⟨[3], [0], [0, 1]⟩, [5]⟩ : LinearSystem ℚ).On cell1Pattern cell1 ∧ 0 < cell1.nCells :=
  ⟨cell1_wf, cell1Pattern_for, ⟨rfl, rfl, rfl, rfl⟩, by decide⟩

end NeoFOAM
