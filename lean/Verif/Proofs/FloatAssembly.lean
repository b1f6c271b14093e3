import Verif.Spec.FloatSystem
import Verif.Proofs.Float
import Verif.Proofs.AssemblyRel
import Verif.Props.C81_Rounding

/-! # Assembly in floating point (proof side) -/
namespace NeoFOAM
open Finset
variable {F K : Type} [Add F] [Sub F] [Mul F] [Div F] [Neg F] [Zero F] [One F] [LinearOrder F] [Field K] [LinearOrder K] [IsStrictOrderedRing K]
variable {val : F → K} {u : K} {m : Mesh F} {sp : SparsityPattern}

/-- The entry stored at an address. -/
noncomputable def slotAt (m : Mesh F) (sp : SparsityPattern) (p : Nat) : Slot :=
  open Classical in if h : ∃ s : Slot, s.Valid m ∧ sp.addr m s = p then h.choose else .diag 0

omit [Add F] [Sub F] [Mul F] [Div F] [Neg F] [Zero F] [One F] [LinearOrder F] in
theorem slotAt_addr (hp : sp.For m) {s : Slot} (hs : s.Valid m) : slotAt m sp (sp.addr m s) = s := by
  have h : ∃ t : Slot, t.Valid m ∧ sp.addr m t = sp.addr m s := ⟨s, hs, rfl⟩
  unfold slotAt
  rw [dif_pos h]
  exact hp.adr.inj _ _ h.choose_spec.1 hs h.choose_spec.2

/-- Every term carries at most `j` roundings. -/
def TracksSys (val : F → K) (u : K) (j : Nat) : LSArr → Nat → F → K × K × ℤ → Prop := fun _ _ a g => Tracks val u j a g

/-- The exact quantities beside a system. -/
theorem near_start (hp : sp.For m) {A : LinearSystem F} {E : LinearSystem K} {n : Slot → Nat} {S : Slot → K} {k : Nat → Nat} {T : Nat → K} (j : Nat)
    (hA : SysNear val u m sp A E n S k T) (hn : ∀ s : Slot, s.Valid m → j ≤ n s) (hk : ∀ c < m.nCells, j ≤ k c) :
    ∃ b : LinearSystem (K × K × ℤ), SysRel (TracksSys val u j) A b ∧ b.On sp m ∧
      (∀ s : Slot, s.Valid m → b.matrix.val (sp.addr m s) = (E.matrix.val (sp.addr m s), S s, (n s : ℤ))) ∧
      ∀ c < m.nCells, b.rhs.getD c 0 = (ix E.rhs c, T c, (k c : ℤ)) := by
  have hr : SysRel (TracksSys val u j) A ⟨⟨(List.range sp.colIdxs.length).map fun p => (E.matrix.val p, S (slotAt m sp p), (n (slotAt m sp p) : ℤ)), A.matrix.colIdxs, A.matrix.rowOffs⟩,
      (List.range m.nCells).map fun c => (ix E.rhs c, T c, (k c : ℤ))⟩ := by
    refine ⟨rfl, rfl, ⟨by simp [hA.onA.vals], fun i h1 h2 => ?_⟩, ⟨by simp [hA.onA.rhsLen], fun i h1 h2 => ?_⟩⟩
    · have hi : i < sp.colIdxs.length := by rw [← hA.onA.vals]; exact h1
      obtain ⟨s, hs, rfl⟩ := hp.adr.surj i hi
      have h3 : A.matrix.values[sp.addr m s] = A.matrix.val (sp.addr m s) := by simp [CSR.val, List.getD, h1]
      simp only [List.getElem_map, List.getElem_range, slotAt_addr hp hs]
      rw [h3]
      exact ⟨n s, rfl, hn s hs, hA.coef s hs, hA.size s hs⟩
    · have hi : i < m.nCells := by rw [← hA.onA.rhsLen]; exact h1
      have h3 : A.rhs[i] = ix A.rhs i := by simp [ix, List.getD, h1]
      simp only [List.getElem_map, List.getElem_range]
      rw [h3]
      exact ⟨k i, rfl, hk i hi, hA.rhs i hi, hA.rhsSize i hi⟩
  refine ⟨_, hr, hr.on hA.onA, fun s hs => ?_, fun c hc => ?_⟩
  · have hi : sp.addr m s < sp.colIdxs.length := by
      obtain ⟨h1, h2⟩ := List.getElem?_eq_some_iff.1 (hp.adr.column s hs)
      exact h1
    simp only [CSR.val, List.getD, List.getElem?_map, List.getElem?_range hi, Option.map_some, Option.getD_some, slotAt_addr hp hs]
  · simp [List.getD, hc]

omit [Add F] [Sub F] [Mul F] [Div F] [Neg F] [One F] [LinearOrder F] in
/-- Reading off the result. -/
theorem near_end {A' : LinearSystem F} {E E' : LinearSystem K} {n : Slot → Nat} {S : Slot → K} {k : Nat → Nat} {T : Nat → K} {j : Nat}
    {b b' : LinearSystem (K × K × ℤ)} (hb : ∀ s : Slot, s.Valid m → b.matrix.val (sp.addr m s) = (E.matrix.val (sp.addr m s), S s, (n s : ℤ)))
    (hb' : ∀ c < m.nCells, b.rhs.getD c 0 = (ix E.rhs c, T c, (k c : ℤ))) (hr : SysRel (TracksSys val u j) A' b')
    {dg : Slot → K × K × ℤ} {rg : Nat → K × K × ℤ} (ha : Assembles m sp b b' dg rg) {dv : Slot → K} {dr : Nat → K} (he : Assembles m sp E E' dv dr) (hp : sp.For m)
    {dn : Slot → Nat} {dS : Slot → K} {dk : Nat → Nat} {dT : Nat → K} (hdg : ∀ s : Slot, s.Valid m → dg s = (dv s, dS s, (dn s : ℤ)))
    (hrg : ∀ c < m.nCells, rg c = (dr c, dT c, (dk c : ℤ))) :
    SysNear val u m sp A' E' (fun s => n s + dn s) (fun s => S s + dS s) (fun c => k c + dk c) (fun c => T c + dT c) := by
  have oA := hr.on' ha.on
  have h1 : ∀ s : Slot, s.Valid m → Approx u (n s + dn s) (val (A'.matrix.val (sp.addr m s))) (E'.matrix.val (sp.addr m s)) (S s + dS s) := by
    intro s hs
    have hi : sp.addr m s < sp.colIdxs.length := by
      obtain ⟨h1, h2⟩ := List.getElem?_eq_some_iff.1 (hp.adr.column s hs)
      exact h1
    have i1 : sp.addr m s < A'.matrix.values.length := by rw [oA.vals]; exact hi
    have i2 : sp.addr m s < b'.matrix.values.length := by rw [ha.on.vals]; exact hi
    have t : Tracks val u j (A'.matrix.val (sp.addr m s)) (b'.matrix.val (sp.addr m s)) := by
      have : Tracks val u j A'.matrix.values[sp.addr m s] b'.matrix.values[sp.addr m s] := hr.vals.2 _ i1 i2
      simpa [CSR.val, List.getD, i1, i2] using this
    rw [ha.coef s hs, hb s hs, hdg s hs] at t
    obtain ⟨q, q1, -, q3⟩ := t
    have : q = n s + dn s := by
      simp only [Prod.snd_add] at q1
      omega
    rw [this] at q3
    rw [he.coef s hs]
    exact q3
  have h2 : ∀ c < m.nCells, Approx u (k c + dk c) (val (ix A'.rhs c)) (ix E'.rhs c) (T c + dT c) := by
    intro c hc
    have i1 : c < A'.rhs.length := by rw [oA.rhsLen]; exact hc
    have i2 : c < b'.rhs.length := by rw [ha.on.rhsLen]; exact hc
    have t : Tracks val u j (ix A'.rhs c) (b'.rhs.getD c 0) := by
      have : Tracks val u j A'.rhs[c] b'.rhs[c] := hr.rhs.2 _ i1 i2
      simpa [ix, List.getD, i1, i2] using this
    rw [ha.rhs c hc, hb' c hc, hrg c hc] at t
    obtain ⟨q, q1, -, q3⟩ := t
    have : q = k c + dk c := by
      simp only [Prod.snd_add] at q1
      omega
    rw [this] at q3
    rw [show ix E'.rhs c = ix E.rhs c + dr c from he.rhs c hc]
    exact q3
  exact ⟨oA, he.on, fun s hs => (h1 s hs).1, fun s hs => (h1 s hs).2, fun c hc => (h2 c hc).1, fun c hc => (h2 c hc).2⟩

omit [Add F] [Sub F] [Mul F] [Div F] [Neg F] [One F] [LinearOrder F] in
theorem SysNear.mono (hu : 0 ≤ u) {A : LinearSystem F} {E : LinearSystem K} {n n' : Slot → Nat} {S S' : Slot → K} {k k' : Nat → Nat} {T T' : Nat → K}
    (h : SysNear val u m sp A E n S k T) (h1 : ∀ s : Slot, s.Valid m → n s ≤ n' s) (h2 : ∀ s : Slot, s.Valid m → S s ≤ S' s) (h3 : ∀ c < m.nCells, k c ≤ k' c)
    (h4 : ∀ c < m.nCells, T c ≤ T' c) : SysNear val u m sp A E n' S' k' T' := by
  have a : ∀ s : Slot, s.Valid m → Approx u (n' s) (val (A.matrix.val (sp.addr m s))) (E.matrix.val (sp.addr m s)) (S' s) := fun s hs =>
    Approx.mono hu ⟨h.coef s hs, h.size s hs⟩ (h1 s hs) (h2 s hs)
  have b : ∀ c < m.nCells, Approx u (k' c) (val (ix A.rhs c)) (ix E.rhs c) (T' c) := fun c hc => Approx.mono hu ⟨h.rhs c hc, h.rhsSize c hc⟩ (h3 c hc) (h4 c hc)
  exact ⟨h.onA, h.onE, fun s hs => (a s hs).1, fun s hs => (a s hs).2, fun c hc => (b c hc).1, fun c hc => (b c hc).2⟩

theorem Tracks.plus (hF : FloatArith F val u) {j i : Nat} {a b : F} {x A : K} (hb : Approx u i (val b) x A) (hi : i ≤ j) {g : K × K × ℤ} (h : Tracks val u j a g) :
    Tracks val u j (a + b) (g + (x, A, 1)) := h.add hF (hb.mono hF.roundoff hi le_rfl)

theorem Tracks.minus (hF : FloatArith F val u) {j i : Nat} {a b : F} {x A : K} (hb : Approx u i (val b) x A) (hi : i ≤ j) {g : K × K × ℤ} (h : Tracks val u j a g) :
    Tracks val u j (a - b) (g + (-x, A, 1)) := h.sub hF (hb.mono hF.roundoff hi le_rfl)

omit [Add F] [Sub F] [Mul F] [Div F] [Neg F] [Zero F] [One F] [LinearOrder F] [Field K] [LinearOrder K] [IsStrictOrderedRing K] in
theorem ite_triple {A B C : Type} [Zero A] [Zero B] [Zero C] (p : Prop) [Decidable p] (x : A) (y : B) (z : C) :
    (if p then (x, y, z) else (0 : A × B × C)) = (if p then x else 0, if p then y else 0, if p then z else 0) := by split <;> rfl

omit [Add F] [Sub F] [Mul F] [Div F] [Neg F] [Zero F] [One F] [LinearOrder F] [Field K] [LinearOrder K] [IsStrictOrderedRing K] in
theorem sum_triple {ι A B C : Type} [AddCommMonoid A] [AddCommMonoid B] [AddCommMonoid C] (t : Finset ι) (x : ι → A) (y : ι → B) (z : ι → C) :
    ∑ i ∈ t, (x i, y i, z i) = (∑ i ∈ t, x i, ∑ i ∈ t, y i, ∑ i ∈ t, z i) := by
  refine Prod.ext (by simp [Prod.fst_sum]) (Prod.ext (by simp [Prod.fst_sum, Prod.snd_sum]) (by simp [Prod.snd_sum]))

omit [Add F] [Sub F] [Mul F] [Div F] [Neg F] [Zero F] [One F] [LinearOrder F] [LinearOrder K] [IsStrictOrderedRing K] in
theorem faceDelta_triple (x1 x2 x3 x4 y1 y2 y3 y4 : Nat → K) (s : Slot) :
    faceDelta m (fun f => (x1 f, y1 f, (1 : ℤ))) (fun f => (x2 f, y2 f, 1)) (fun f => (x3 f, y3 f, 1)) (fun f => (x4 f, y4 f, 1)) s =
      (faceDelta m x1 x2 x3 x4 s, faceDelta m y1 y2 y3 y4 s, faceDelta m (fun _ => (1 : ℤ)) (fun _ => 1) (fun _ => 1) (fun _ => 1) s) := by
  cases s with
  | diag c => simp only [faceDelta, ite_triple, Prod.mk_add_mk, sum_triple]
  | upper f => rfl
  | lower f => rfl

omit [Add F] [Sub F] [Mul F] [Div F] [Neg F] [Zero F] [One F] [LinearOrder F] [LinearOrder K] [IsStrictOrderedRing K] in
theorem diagDelta_triple (x y : Nat → K) (z : Nat → ℤ) (s : Slot) :
    diagDelta (fun c => (x c, y c, z c)) s = (diagDelta x s, diagDelta y s, diagDelta z s) := by cases s <;> rfl

/-- The number of terms added to an entry. -/
theorem count_triple (s : Slot) : faceDelta m (fun _ => (1 : ℤ)) (fun _ => 1) (fun _ => 1) (fun _ => 1) s +
    diagDelta (fun c => ∑ b ∈ range m.nBoundaryFaces, if m.fc b = c then (1 : ℤ) else 0) s = (m.roundings s : ℤ) := by
  cases s with
  | diag c =>
    simp only [faceDelta, diagDelta, Mesh.roundings, Mesh.faceCount, Mesh.faceSum]
    push_cast
    rfl
  | upper f => simp [faceDelta, diagDelta, Mesh.roundings]
  | lower f => simp [faceDelta, diagDelta, Mesh.roundings]

end NeoFOAM
