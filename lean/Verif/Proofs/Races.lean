import Verif.Base.Lost
import Verif.Proofs.AssemblyRel
import Verif.Spec.Races

/-! # Racing boundary loops (proof side) -/
namespace NeoFOAM
open Finset
variable {K V : Type} {m : Mesh K} {sp : SparsityPattern}

theorem foldr_add [AddCommGroup V] (dg : Nat → V) (f : Nat → V → V) (hf : ∀ t x, f t x = x + dg t) (σ : List Nat) (hσ : σ.Nodup) (x : V) :
    σ.foldr f x = x + ∑ t ∈ σ.toFinset, dg t := by
  induction σ with
  | nil => simp
  | cons t σ ih =>
    rw [List.nodup_cons] at hσ
    rw [List.foldr_cons, ih hσ.2, hf, List.toFinset_cons, Finset.sum_insert (by simpa using hσ.1)]
    abel

variable [AddCommGroup V]

/-- A loop whose thread `f` updates the diagonal and the right hand side of cell `cell f`, on any schedule. -/
theorem diagLoop_lost (h : m.WF) (hp : sp.For m) (e : ExecKind) (start stop : Nat) (cell : Nat → Nat) (body : Nat → Res (List (Act LSArr V)))
    (dg rh : Nat → V) (fd fr : Nat → V → V) (ls : LinearSystem V) (ho : ls.On sp m)
    (hcell : ∀ i, start ≤ i → i < stop → cell i < m.nCells)
    (hfd : ∀ i x, fd i x = x + dg i) (hfr : ∀ i x, fr i x = x + rh i)
    (hb : ∀ i, start ≤ i → i < stop → body i = .ok (Act.plain i .values (sp.addr m (.diag (cell i))) (fd i)
      ++ Act.plain i .rhs (cell i) (fr i))) :
    (launchLS e start stop body ls).Ok (fun ls' => ∃ D R : Nat → Finset Nat,
      (∀ c < m.nCells, (∀ i ∈ D c, start ≤ i ∧ i < stop ∧ cell i = c) ∧ (∀ i, start ≤ i → i < stop → cell i = c → (D c).Nonempty)) ∧
      (∀ c < m.nCells, (∀ i ∈ R c, start ≤ i ∧ i < stop ∧ cell i = c) ∧ (∀ i, start ≤ i → i < stop → cell i = c → (R c).Nonempty)) ∧
      Assembles m sp ls ls' (diagDelta fun c => ∑ i ∈ D c, dg i) (fun c => ∑ i ∈ R c, rh i)) := by
  classical
  refine NR.Ok.bind (launch_lost e start stop (fun t => [(LSArr.values, sp.addr m (.diag (cell t))), (LSArr.rhs, cell t)])
    (fun t L => match L.1 with | .values => fd t | .rhs => fr t) (fun a => match a with | .values => ls.matrix.values | .rhs => ls.rhs) ?_ ?_ body ?_) ?_
  · intro t _ _; simp
  · intro t h1 h2 L hL
    simp only [List.mem_cons, List.not_mem_nil, or_false] at hL
    rcases hL with rfl | rfl
    · show _ < ls.matrix.values.length
      rw [ho.vals]; exact hp.addr_lt h (show (Slot.diag (cell t)).Valid m from hcell t h1 h2)
    · show _ < ls.rhs.length
      rw [ho.rhsLen]; exact hcell t h1 h2
  · intro t h1 h2
    rw [hb t h1 h2]
    simp [plains]
  · rintro g ⟨g1, g2⟩
    choose σ s1 s2 s3 s4 using g2
    have inj : ∀ c < m.nCells, ∀ t, start ≤ t → t < stop → sp.addr m (.diag c) = sp.addr m (.diag (cell t)) → cell t = c := by
      intro c hc t h1 h2 he
      have := hp.adr.inj (.diag c) (.diag (cell t)) hc (hcell t h1 h2) he
      simpa using this.symm
    refine NR.Ok.pure ⟨fun c => (σ .values (sp.addr m (.diag c))).toFinset, fun c => (σ .rhs c).toFinset, ?_, ?_, ?_⟩
    · intro c hc
      refine ⟨fun t ht => ?_, fun t h1 h2 he => ?_⟩
      · obtain ⟨h1, h2, h3⟩ := s2 _ _ t (by simpa using ht)
        refine ⟨h1, h2, ?_⟩
        simp only [List.mem_cons, Prod.mk.injEq, true_and, reduceCtorEq, false_and, List.not_mem_nil, or_false] at h3
        exact inj c hc t h1 h2 h3
      · have := s3 .values (sp.addr m (.diag c)) t h1 h2 (by rw [he]; simp)
        rw [List.toFinset_nonempty_iff]; exact this
    · intro c hc
      refine ⟨fun t ht => ?_, fun t h1 h2 he => ?_⟩
      · obtain ⟨h1, h2, h3⟩ := s2 _ _ t (by simpa using ht)
        refine ⟨h1, h2, ?_⟩
        simp only [List.mem_cons, Prod.mk.injEq, true_and, reduceCtorEq, false_and, List.not_mem_nil, or_false, false_or] at h3
        exact h3.symm
      · have := s3 .rhs c t h1 h2 (by rw [he]; simp)
        rw [List.toFinset_nonempty_iff]; exact this
    · refine ⟨⟨ho.cols, ho.rowsEq, (g1 .values).trans ho.vals, (g1 .rhs).trans ho.rhsLen⟩, fun s hs => ?_, fun c hc => ?_⟩
      · have hlt : sp.addr m s < ls.matrix.values.length := by rw [ho.vals]; exact hp.addr_lt h hs
        have := s4 .values (sp.addr m s)
        show (g .values).getD (sp.addr m s) 0 = ls.matrix.values.getD (sp.addr m s) 0 + _
        rw [List.getD_eq_getElem?_getD, List.getD_eq_getElem?_getD, this]
        show (Option.map _ (ls.matrix.values[sp.addr m s]?)).getD 0 = _
        rw [List.getElem?_eq_getElem hlt]
        simp only [Option.map_some, Option.getD_some]
        have hnil : (∀ c, s ≠ .diag c) → σ .values (sp.addr m s) = [] := by
          intro hne
          rw [List.eq_nil_iff_forall_not_mem]
          intro t ht
          obtain ⟨h1, h2, h3⟩ := s2 _ _ t ht
          simp only [List.mem_cons, Prod.mk.injEq, true_and, reduceCtorEq, false_and, List.not_mem_nil, or_false] at h3
          exact hne _ (hp.adr.inj s (.diag (cell t)) hs (hcell t h1 h2) h3)
        cases s with
        | diag c => exact foldr_add dg _ hfd _ (s1 _ _) _
        | upper f => rw [hnil (by simp)]; simp [diagDelta]
        | lower f => rw [hnil (by simp)]; simp [diagDelta]
      · have hlt : c < ls.rhs.length := by rw [ho.rhsLen]; exact hc
        have := s4 .rhs c
        show (g .rhs).getD c 0 = ls.rhs.getD c 0 + _
        rw [List.getD_eq_getElem?_getD, List.getD_eq_getElem?_getD, this]
        show (Option.map _ (ls.rhs[c]?)).getD 0 = _
        rw [List.getElem?_eq_getElem hlt]
        simp only [Option.map_some, Option.getD_some]
        exact foldr_add rh _ hfr _ (s1 _ _) _

/-- The same for the boundary faces of a mesh, in terms of the faces that are lost. -/
theorem boundaryLoop_lost (h : m.WF) (hp : sp.For m) (e : ExecKind) (stop : Nat) (hstop : stop = m.nInternalFaces + m.nBoundaryFaces)
    (body : Nat → Res (List (Act LSArr V))) (dg rh : Nat → V) (fd fr : Nat → V → V) (ls : LinearSystem V) (ho : ls.On sp m)
    (hfd : ∀ i x, fd i x = x + dg i) (hfr : ∀ i x, fr i x = x + rh i)
    (hb : ∀ i, m.nInternalFaces ≤ i → i < stop → body i = .ok (Act.plain i .values (sp.addr m (.diag (m.fc (i - m.nInternalFaces)))) (fd i)
      ++ Act.plain i .rhs (m.fc (i - m.nInternalFaces)) (fr i))) :
    (launchLS e m.nInternalFaces stop body ls).Ok (fun ls' => ∃ L L' : Finset Nat, m.Lost L ∧ m.Lost L' ∧
      Assembles m sp ls ls' (diagDelta fun c => ∑ b ∈ range m.nBoundaryFaces, if m.fc b = c then (if b ∈ L then 0 else dg (m.nInternalFaces + b)) else 0)
        (fun c => ∑ b ∈ range m.nBoundaryFaces, if m.fc b = c then (if b ∈ L' then 0 else rh (m.nInternalFaces + b)) else 0)) := by
  classical
  refine (diagLoop_lost h hp e m.nInternalFaces stop (fun i => m.fc (i - m.nInternalFaces)) body dg rh fd fr ls ho (fun i h1 h2 => h.fc_lt _ (by omega)) hfd hfr hb).mono ?_
  rintro ls' ⟨D, R, hD, hR, ha⟩
  set n := m.nInternalFaces
  have lost : ∀ D : Nat → Finset Nat, (∀ c < m.nCells, (∀ i ∈ D c, n ≤ i ∧ i < stop ∧ m.fc (i - n) = c) ∧ (∀ i, n ≤ i → i < stop → m.fc (i - n) = c → (D c).Nonempty)) →
      m.Lost ((range m.nBoundaryFaces).filter fun b => n + b ∉ D (m.fc b)) := by
    intro D hD
    refine ⟨fun b hb => mem_range.1 (mem_filter.1 hb).1, fun b hb => ?_⟩
    obtain ⟨i, hi⟩ := (hD _ (h.fc_lt b hb)).2 (n + b) (by omega) (by omega) (by rw [Nat.add_sub_cancel_left])
    obtain ⟨h1, h2, h3⟩ := (hD _ (h.fc_lt b hb)).1 i hi
    refine ⟨i - n, by omega, h3, fun hc => (mem_filter.1 hc).2 ?_⟩
    rw [h3, show n + (i - n) = i by omega]; exact hi
  have sums : ∀ D : Nat → Finset Nat, (∀ c < m.nCells, (∀ i ∈ D c, n ≤ i ∧ i < stop ∧ m.fc (i - n) = c) ∧ (∀ i, n ≤ i → i < stop → m.fc (i - n) = c → (D c).Nonempty)) →
      ∀ (d : Nat → V), ∀ c < m.nCells, ∑ i ∈ D c, d i = ∑ b ∈ range m.nBoundaryFaces, if m.fc b = c then
        (if b ∈ (range m.nBoundaryFaces).filter (fun b => n + b ∉ D (m.fc b)) then 0 else d (n + b)) else 0 := by
    intro D hD d c hc
    have e1 : ∀ b ∈ range m.nBoundaryFaces, (if m.fc b = c then
        (if b ∈ (range m.nBoundaryFaces).filter (fun b => n + b ∉ D (m.fc b)) then 0 else d (n + b)) else 0) = if n + b ∈ D c then d (n + b) else 0 := by
      intro b hb
      by_cases hbc : m.fc b = c
      · rw [if_pos hbc]
        by_cases hd : n + b ∈ D c
        · rw [if_pos hd, if_neg]
          intro hh; exact (mem_filter.1 hh).2 (by rw [hbc]; exact hd)
        · rw [if_neg hd, if_pos]
          exact mem_filter.2 ⟨hb, by rw [hbc]; exact hd⟩
      · rw [if_neg hbc, if_neg]
        intro hd
        exact hbc (by have := ((hD c hc).1 _ hd).2.2; rwa [Nat.add_sub_cancel_left] at this)
    rw [Finset.sum_congr rfl e1, ← Finset.sum_filter]
    refine Finset.sum_bij' (fun i _ => i - n) (fun b _ => n + b) ?_ ?_ ?_ ?_ ?_
    · intro i hi
      obtain ⟨h1, h2, h3⟩ := (hD c hc).1 i hi
      exact mem_filter.2 ⟨mem_range.2 (by omega), by rw [show n + (i - n) = i by omega]; exact hi⟩
    · intro b hb; exact (mem_filter.1 hb).2
    · intro i hi
      have := ((hD c hc).1 i hi).1
      omega
    · intro b _; omega
    · intro i hi
      have := ((hD c hc).1 i hi).1
      rw [show n + (i - n) = i by omega]
  refine ⟨_, _, lost D hD, lost R hR, ha.congr ?_ ?_⟩
  · intro s hs
    cases s with
    | diag c => exact sums D hD dg c hs
    | upper f => rfl
    | lower f => rfl
  · intro c hc
    exact sums R hR rh c hc

end NeoFOAM
