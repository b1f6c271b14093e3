import Verif.Spec.Float
import Verif.Proofs.Gauss
import Verif.Base.Rel
import Mathlib.Algebra.Order.Ring.Abs
import Mathlib.Algebra.Order.Field.Basic
import Mathlib.Algebra.BigOperators.Pi
import Mathlib.Algebra.Order.BigOperators.Group.Finset
import Mathlib.Tactic.Linarith
import Mathlib.Tactic.Ring
import Mathlib.Tactic.Positivity

/-! # Rounding errors (proof side) -/
namespace NeoFOAM
open Finset
variable {F K : Type}

section approx
variable [Field K] [LinearOrder K] [IsStrictOrderedRing K]

/-- `a` is `x` up to `n` roundings of terms of size `A`. -/
def Approx (u : K) (n : Nat) (a x A : K) : Prop := |a - x| ≤ ((1 + u) ^ n - 1) * A ∧ |x| ≤ A

variable {u : K} {n k : Nat} {a b c x y A B : K}

theorem Approx.size (h : Approx u n a x A) : 0 ≤ A := (abs_nonneg x).trans h.2

theorem one_le_pow_u (hu : 0 ≤ u) (n : Nat) : 1 ≤ (1 + u) ^ n := one_le_pow₀ (by linarith)

theorem Approx.exact (hu : 0 ≤ u) (n : Nat) (x : K) : Approx u n x x |x| := by
  refine ⟨?_, le_rfl⟩
  rw [sub_self, abs_zero]
  exact mul_nonneg (by linarith [one_le_pow_u hu n]) (abs_nonneg x)

theorem Approx.mono (hu : 0 ≤ u) (h : Approx u n a x A) (hn : n ≤ k) (hA : A ≤ B) : Approx u k a x B := by
  have h1 : (1 + u) ^ n ≤ (1 + u) ^ k := pow_le_pow_right₀ (by linarith) hn
  have h2 := one_le_pow_u hu n
  refine ⟨h.1.trans ?_, h.2.trans hA⟩
  exact mul_le_mul (by linarith) hA h.size (by linarith)

/-- How large the computed value is. -/
theorem Approx.abs_le (h : Approx u n a x A) : |a| ≤ (1 + u) ^ n * A := by
  have : |a| ≤ |a - x| + |x| := by simpa using abs_add_le (a - x) x
  linarith [h.1, h.2]

/-- One more rounding. -/
theorem Approx.round (hu : 0 ≤ u) (h : Approx u n a x A) (hc : |c - a| ≤ u * |a|) : Approx u (n + 1) c x A := by
  refine ⟨?_, h.2⟩
  have h1 : |c - x| ≤ |c - a| + |a - x| := by simpa using abs_add_le (c - a) (a - x)
  have h2 := mul_le_mul_of_nonneg_left h.abs_le hu
  calc |c - x| ≤ u * ((1 + u) ^ n * A) + ((1 + u) ^ n - 1) * A := by linarith [h.1]
    _ = ((1 + u) ^ (n + 1) - 1) * A := by ring

theorem Approx.plus (h : Approx u n a x A) (h' : Approx u n b y B) : Approx u n (a + b) (x + y) (A + B) := by
  refine ⟨?_, (abs_add_le x y).trans (add_le_add h.2 h'.2)⟩
  have : |a + b - (x + y)| ≤ |a - x| + |b - y| := by
    rw [show a + b - (x + y) = (a - x) + (b - y) by ring]; exact abs_add_le _ _
  rw [mul_add]
  linarith [h.1, h'.1]

theorem Approx.neg (h : Approx u n a x A) : Approx u n (-a) (-x) A := by
  refine ⟨?_, by rw [abs_neg]; exact h.2⟩
  rw [show -a - -x = -(a - x) by ring, abs_neg]
  exact h.1

theorem Approx.minus (h : Approx u n a x A) (h' : Approx u n b y B) : Approx u n (a - b) (x - y) (A + B) := by
  rw [sub_eq_add_neg, sub_eq_add_neg]
  exact h.plus h'.neg

theorem Approx.times (hu : 0 ≤ u) (h : Approx u n a x A) (h' : Approx u k b y B) : Approx u (n + k) (a * b) (x * y) (A * B) := by
  refine ⟨?_, by rw [abs_mul]; exact mul_le_mul h.2 h'.2 (abs_nonneg y) h.size⟩
  have h1 : |a * b - x * y| ≤ |a - x| * |b| + |x| * |b - y| := by
    rw [← abs_mul, ← abs_mul, show a * b - x * y = (a - x) * b + x * (b - y) by ring]; exact abs_add_le _ _
  have h2 : |a - x| * |b| ≤ (((1 + u) ^ n - 1) * A) * ((1 + u) ^ k * B) :=
    mul_le_mul h.1 h'.abs_le (abs_nonneg b) (mul_nonneg (by linarith [one_le_pow_u hu n]) h.size)
  have h3 : |x| * |b - y| ≤ A * (((1 + u) ^ k - 1) * B) := mul_le_mul h.2 h'.1 (abs_nonneg _) h.size
  calc |a * b - x * y| ≤ (((1 + u) ^ n - 1) * A) * ((1 + u) ^ k * B) + A * (((1 + u) ^ k - 1) * B) := by linarith
    _ = ((1 + u) ^ (n + k) - 1) * (A * B) := by ring

theorem Approx.over (h : Approx u n a x A) (d : K) : Approx u n (a / d) (x / d) (A / |d|) := by
  refine ⟨?_, by rw [abs_div]; exact div_le_div_of_nonneg_right h.2 (abs_nonneg d)⟩
  rw [← sub_div, abs_div, ← mul_div_assoc]
  exact div_le_div_of_nonneg_right h.1 (abs_nonneg d)

end approx

section ops
variable [Add F] [Sub F] [Mul F] [Div F] [Neg F] [Zero F] [One F] [LinearOrder F] [Field K] [LinearOrder K] [IsStrictOrderedRing K]
variable {val : F → K} {u : K} {n k : Nat} {a b : F} {x y A B : K}

theorem FloatArith.approx (hF : FloatArith F val u) (n : Nat) (a : F) : Approx u n (val a) (val a) |val a| := Approx.exact hF.roundoff n _

theorem FloatArith.approx_zero (hF : FloatArith F val u) (n : Nat) : Approx u n (val (0 : F)) 0 0 := by
  have := hF.approx n 0
  rw [hF.zero, abs_zero] at this
  rw [hF.zero]
  exact this

theorem FloatArith.approx_add (hF : FloatArith F val u) (h : Approx u n (val a) x A) (h' : Approx u k (val b) y B) {l : Nat} (hn : n ≤ l) (hk : k ≤ l) :
    Approx u (l + 1) (val (a + b)) (x + y) (A + B) :=
  ((h.mono hF.roundoff hn le_rfl).plus (h'.mono hF.roundoff hk le_rfl)).round hF.roundoff (hF.add a b)

theorem FloatArith.approx_sub (hF : FloatArith F val u) (h : Approx u n (val a) x A) (h' : Approx u k (val b) y B) {l : Nat} (hn : n ≤ l) (hk : k ≤ l) :
    Approx u (l + 1) (val (a - b)) (x - y) (A + B) :=
  ((h.mono hF.roundoff hn le_rfl).minus (h'.mono hF.roundoff hk le_rfl)).round hF.roundoff (hF.sub a b)

theorem FloatArith.approx_mul (hF : FloatArith F val u) (h : Approx u n (val a) x A) (h' : Approx u k (val b) y B) :
    Approx u (n + k + 1) (val (a * b)) (x * y) (A * B) := (h.times hF.roundoff h').round hF.roundoff (hF.mul a b)

theorem FloatArith.approx_div (hF : FloatArith F val u) (h : Approx u n (val a) x A) (hb : val b ≠ 0) :
    Approx u (n + 1) (val (a / b)) (x / val b) (A / |val b|) := (h.over (val b)).round hF.roundoff (hF.div a b hb)

/-! ### The exact mesh -/

omit [Add F] [Sub F] [Mul F] [Div F] [Neg F] [One F] [LinearOrder F] [LinearOrder K] [IsStrictOrderedRing K] [Field K] [Zero F] in
theorem exact_wf {m : Mesh F} (h : m.WF) : (m.exact val).WF where
  faces := h.faces
  ownLen := h.ownLen
  nbrLen := h.nbrLen
  fcLen := h.fcLen
  volLen := by simp [Mesh.exact, h.volLen]
  ctrLen := by simp [Mesh.exact, h.ctrLen]
  areaLen := by simp [Mesh.exact, h.areaLen]
  fctrLen := by simp [Mesh.exact, h.fctrLen]
  magLen := by simp [Mesh.exact, h.magLen]
  bcfLen := by simp [Mesh.exact, BoundaryMesh.exact, h.bcfLen]
  bsfLen := by simp [Mesh.exact, BoundaryMesh.exact, h.bsfLen]
  bmagLen := by simp [Mesh.exact, BoundaryMesh.exact, h.bmagLen]
  bdcLen := by simp [Mesh.exact, BoundaryMesh.exact, h.bdcLen]
  bwLen := by simp [Mesh.exact, BoundaryMesh.exact, h.bwLen]
  own_lt := h.own_lt
  nbr_lt := h.nbr_lt
  fc_lt := h.fc_lt
  ne := h.ne
  bown := h.bown

omit [Add F] [Sub F] [Mul F] [Div F] [Neg F] [One F] [LinearOrder F] [LinearOrder K] [IsStrictOrderedRing K] in
theorem getD_val (h0 : val 0 = 0) (l : List F) (i : Nat) : (l.map val).getD i 0 = val (l.getD i 0) := by
  by_cases hi : i < l.length
  · simp [List.getD, hi]
  · simp [List.getD, hi, h0]

omit [Add F] [Sub F] [Mul F] [Div F] [Neg F] [One F] [LinearOrder F] [LinearOrder K] [IsStrictOrderedRing K] in
theorem ix_val (h0 : val 0 = 0) (l : List F) (i : Nat) : ix (l.map val) i = val (ix l i) := getD_val h0 l i

omit [Add F] [Sub F] [Mul F] [Div F] [Neg F] [One F] [LinearOrder F] [LinearOrder K] [IsStrictOrderedRing K] [Field K] [Zero F] in
theorem exact_on {m : Mesh F} {φ : VolField F F} (h : φ.On m) : (φ.exact val).On (m.exact val) where
  int := by simp [VolField.exact, Mesh.exact, h.int]
  val := by simp [VolField.exact, Mesh.exact, h.val]
  ref := by simp [VolField.exact, Mesh.exact, h.ref]
  vf := by simp [VolField.exact, Mesh.exact, h.vf]
  grad := by simp [VolField.exact, Mesh.exact, h.grad]

/-! ### Sums over faces in any order -/

/-- The computed value and, beside it, the exact sum, the size of its terms and their number. -/
def Tracks (val : F → K) (u : K) (j : Nat) (a : F) (g : K × K × ℤ) : Prop := ∃ n : Nat, g.2.2 = n ∧ j ≤ n ∧ Approx u n (val a) g.1 g.2.1

theorem Tracks.add (hF : FloatArith F val u) {j : Nat} (hb : Approx u j (val b) x A) {g : K × K × ℤ} (h : Tracks val u j a g) :
    Tracks val u j (a + b) (g + (x, A, 1)) := by
  obtain ⟨n, h1, h2, h3⟩ := h
  exact ⟨n + 1, by simp [h1], by omega, hF.approx_add h3 hb le_rfl h2⟩

theorem Tracks.sub (hF : FloatArith F val u) {j : Nat} (hb : Approx u j (val b) x A) {g : K × K × ℤ} (h : Tracks val u j a g) :
    Tracks val u j (a - b) (g + (-x, A, 1)) := by
  obtain ⟨n, h1, h2, h3⟩ := h
  refine ⟨n + 1, by simp [h1], by omega, ?_⟩
  have := hF.approx_sub h3 hb le_rfl h2
  rw [sub_eq_add_neg] at this
  exact this

/-- What an internal face adds to the exact sums of its two cells. -/
def ghostInternal (m : Mesh F) (x A : Nat → K) (f c : Nat) : K × K × ℤ :=
  (if m.own f = c then (x f, A f, 1) else 0) + (if m.nbr f = c then (-x f, A f, 1) else 0)

/-- What a boundary face adds. -/
def ghostBoundary (m : Mesh F) (x A : Nat → K) (f c : Nat) : K × K × ℤ :=
  if m.fc (f - m.nInternalFaces) = c then (x f, A f, 1) else 0

theorem forall₂_tracks {j : Nat} {a : List F} {g : List (K × K × ℤ)} (h : g.length = a.length)
    (ht : ∀ c (hc : c < a.length), Tracks val u j (a[c]) (g[c]'(h ▸ hc))) : List.Forall₂ (Tracks val u j) a g :=
  List.forall₂_iff_get.2 ⟨h.symm, fun i h1 h2 => ht i h1⟩

theorem ghostInternal_ok {m : Mesh F} (h : m.WF) (e : ExecKind) (x A : Nat → K) (a : List (K × K × ℤ)) (ha : a.length = m.nCells) :
    (launch1 e 0 m.nInternalFaces (fun f => .ok [Act.atomicAdd () (m.own f) (x f, A f, (1 : ℤ)), Act.atomicAdd () (m.nbr f) (-x f, A f, 1)]) a).Ok
      (fun a' => a'.length = m.nCells ∧ ∀ c < m.nCells, a'.getD c 0 = a.getD c 0 + ∑ f ∈ range m.nInternalFaces, ghostInternal m x A f c) := by
  refine (launch1_ok e 0 m.nInternalFaces _
    (fun f => [Act.atomicAdd () (m.own f) (x f, A f, (1 : ℤ)), Act.atomicAdd () (m.nbr f) (-x f, A f, 1)])
    (fun f c => ghostInternal m x A f c) a (fun f _ _ => rfl) (Or.inr ?_) ?_).mono ?_
  · apply threadsCommute_addSub
    intro i y hy
    simp only [List.mem_cons, List.not_mem_nil, or_false] at hy
    rcases hy with rfl | rfl <;> exact Act.isAddSub_add _ _ _
  · intro f _ hf
    refine ((RunsAdd.atomicAdd (n := fun _ : Unit => a.length) (a := ()) (by rw [ha]; exact h.own_lt_int hf)).append
      (RunsAdd.atomicAdd (a := ()) (by rw [ha]; exact h.nbr_lt f hf))).congr ?_
    intro _ i _
    simp only [single, true_and, eq_comm (a := i), ghostInternal]
  · rintro a' ⟨h1, h2⟩
    refine ⟨h1.trans ha, fun c hc => ?_⟩
    rw [h2 c (by omega)]
    simp

theorem ghostInternalPlain_ok {m : Mesh F} (h : m.WF) (x A : Nat → K) (a : List (K × K × ℤ)) (ha : a.length = m.nCells) :
    (launch1 .serial 0 m.nInternalFaces (fun f => .ok (Act.plain f () (m.own f) (· + (x f, A f, (1 : ℤ))) ++ Act.plain f () (m.nbr f) (· + (-x f, A f, 1)))) a).Ok
      (fun a' => a'.length = m.nCells ∧ ∀ c < m.nCells, a'.getD c 0 = a.getD c 0 + ∑ f ∈ range m.nInternalFaces, ghostInternal m x A f c) := by
  refine (launch1_ok .serial 0 m.nInternalFaces _
    (fun f => Act.plain f () (m.own f) (· + (x f, A f, (1 : ℤ))) ++ Act.plain f () (m.nbr f) (· + (-x f, A f, 1)))
    (fun f c => ghostInternal m x A f c) a (fun f _ _ => rfl) (Or.inl rfl) ?_).mono ?_
  · intro f _ hf
    refine ((RunsAdd.plain (n := fun _ : Unit => a.length) (a := ()) (by rw [ha]; exact h.own_lt_int hf) (fun _ => rfl)).append
      (RunsAdd.plain (a := ()) (by rw [ha]; exact h.nbr_lt f hf) (fun _ => rfl))).congr ?_
    intro _ i _
    simp only [single, true_and, eq_comm (a := i), ghostInternal]
  · rintro a' ⟨h1, h2⟩
    refine ⟨h1.trans ha, fun c hc => ?_⟩
    rw [h2 c (by omega)]
    simp

theorem ghostBoundary_ok {m : Mesh F} (h : m.WF) (e : ExecKind) (x A : Nat → K) (a : List (K × K × ℤ)) (ha : a.length = m.nCells) (stop : Nat)
    (hs : stop = m.nInternalFaces + m.nBoundaryFaces) :
    (launch1 e m.nInternalFaces stop (fun f => .ok [Act.atomicAdd () (m.fc (f - m.nInternalFaces)) (x f, A f, (1 : ℤ))]) a).Ok
      (fun a' => a'.length = m.nCells ∧ ∀ c < m.nCells, a'.getD c 0 = a.getD c 0 + ∑ b ∈ range m.nBoundaryFaces, ghostBoundary m x A (m.nInternalFaces + b) c) := by
  subst hs
  refine (launch1_ok e m.nInternalFaces _ _
    (fun f => [Act.atomicAdd () (m.fc (f - m.nInternalFaces)) (x f, A f, (1 : ℤ))])
    (fun f c => ghostBoundary m x A f c) a (fun f _ _ => rfl) (Or.inr ?_) ?_).mono ?_
  · apply threadsCommute_addSub
    intro i y hy
    simp only [List.mem_cons, List.not_mem_nil, or_false] at hy
    subst hy
    exact Act.isAddSub_add _ _ _
  · intro f h1 hf
    refine (RunsAdd.atomicAdd (n := fun _ : Unit => a.length) (a := ()) (by rw [ha]; exact h.fc_lt _ (by omega))).congr ?_
    intro _ i _
    simp only [single, true_and, eq_comm (a := i), ghostBoundary]
  · rintro a' ⟨h1, h2⟩
    refine ⟨h1.trans ha, fun c hc => ?_⟩
    rw [h2 c (by omega)]
    simp

theorem ghostBoundaryPlain_ok {m : Mesh F} (h : m.WF) (x A : Nat → K) (a : List (K × K × ℤ)) (ha : a.length = m.nCells) :
    (launch1 .serial m.nInternalFaces (m.nInternalFaces + m.nBoundaryFaces)
      (fun f => .ok (Act.plain f () (m.fc (f - m.nInternalFaces)) (· + (x f, A f, (1 : ℤ))))) a).Ok
      (fun a' => a'.length = m.nCells ∧ ∀ c < m.nCells, a'.getD c 0 = a.getD c 0 + ∑ b ∈ range m.nBoundaryFaces, ghostBoundary m x A (m.nInternalFaces + b) c) := by
  refine (launch1_ok .serial m.nInternalFaces _ _
    (fun f => Act.plain f () (m.fc (f - m.nInternalFaces)) (· + (x f, A f, (1 : ℤ))))
    (fun f c => ghostBoundary m x A f c) a (fun f _ _ => rfl) (Or.inl rfl) ?_).mono ?_
  · intro f h1 hf
    refine (RunsAdd.plain (n := fun _ : Unit => a.length) (a := ()) (by rw [ha]; exact h.fc_lt _ (by omega)) (fun _ => rfl)).congr ?_
    intro _ i _
    simp only [single, true_and, eq_comm (a := i), ghostBoundary]
  · rintro a' ⟨h1, h2⟩
    refine ⟨h1.trans ha, fun c hc => ?_⟩
    rw [h2 c (by omega)]
    simp

theorem NR.bind_assoc' {α β γ : Type} (X : NR α) (f : α → NR β) (g : β → NR γ) : (X >>= f >>= g) = (X >>= fun a => f a >>= g) := by
  funext out
  apply propext
  constructor
  · rintro ⟨r, ⟨r', hr', h1⟩, h2⟩
    refine ⟨r', hr', ?_⟩
    cases r' with
    | ok a => exact ⟨r, h1, h2⟩
    | throw x => cases (show r = _ from h1); exact h2
    | abort => cases (show r = _ from h1); exact h2
    | ub => cases (show r = _ from h1); exact h2
  · rintro ⟨r', hr', h1⟩
    cases r' with
    | ok a =>
      obtain ⟨r, h1, h2⟩ := h1
      exact ⟨r, ⟨.ok a, hr', h1⟩, h2⟩
    | throw x => exact ⟨.throw x, ⟨.throw x, hr', rfl⟩, h1⟩
    | abort => exact ⟨.abort, ⟨.abort, hr', rfl⟩, h1⟩
    | ub => exact ⟨.ub, ⟨.ub, hr', rfl⟩, h1⟩

/-- The start of the exact sums. -/
def ghostStart (j : Nat) (n : Nat) (x A : Nat → K) : List (K × K × ℤ) := (List.range n).map fun c => (x c, A c, (j : ℤ))

theorem ghostStart_tracks {j n : Nat} {a : List F} (ha : a.length = n) {x A : Nat → K} (h : ∀ c < n, Approx u j (val (ix a c)) (x c) (A c)) :
    List.Forall₂ (Tracks val u j) a (ghostStart j n x A) := by
  refine forall₂_tracks (by simp [ghostStart, ha]) fun c hc => ?_
  have := h c (by omega)
  refine ⟨j, by simp [ghostStart], le_rfl, ?_⟩
  simpa [ghostStart, ix, List.getD, hc] using this

omit [Add F] [Sub F] [Mul F] [Div F] [Neg F] [Zero F] [One F] [LinearOrder F] [LinearOrder K] [IsStrictOrderedRing K] in
theorem ghost_sum (m : Mesh F) (x A : Nat → K) (c : Nat) :
    ∑ f ∈ range m.nInternalFaces, ghostInternal m x A f c + ∑ b ∈ range m.nBoundaryFaces, ghostBoundary m x A (m.nInternalFaces + b) c
      = (m.netOutflow x c, m.faceSum A c, (m.faceCount c : ℤ)) := by
  have e1 : ∀ (p : Prop) [Decidable p] (q : K × K × ℤ), (if p then q else 0).1 = if p then q.1 else 0 := by intro p _ q; split <;> rfl
  have e2 : ∀ (p : Prop) [Decidable p] (q : K × K × ℤ), (if p then q else 0).2.1 = if p then q.2.1 else 0 := by intro p _ q; split <;> rfl
  have e3 : ∀ (p : Prop) [Decidable p] (q : K × K × ℤ), (if p then q else 0).2.2 = if p then q.2.2 else 0 := by intro p _ q; split <;> rfl
  refine Prod.ext ?_ (Prod.ext ?_ ?_)
  · simp only [Prod.fst_add, Prod.fst_sum, ghostInternal, ghostBoundary, e1, Mesh.netOutflow, Nat.add_sub_cancel_left, sum_add_distrib]
    congr 1
    rw [sub_eq_add_neg, ← sum_neg_distrib]
    congr 1
    refine sum_congr rfl fun f _ => ?_
    split <;> simp
  · simp only [Prod.snd_add, Prod.fst_add, Prod.snd_sum, Prod.fst_sum, ghostInternal, ghostBoundary, e2, Mesh.faceSum, Nat.add_sub_cancel_left]
  · simp only [Prod.snd_add, Prod.snd_sum, ghostInternal, ghostBoundary, e3, Mesh.faceCount, Mesh.faceSum, Nat.add_sub_cancel_left]
    push_cast
    rfl

theorem tracks_end {m : Mesh F} {j : Nat} {x A x0 A0 : Nat → K} {r : List F} {q : List (K × K × ℤ)} (hr : List.Forall₂ (Tracks val u j) r q) (h1 : q.length = m.nCells)
    {p : List (K × K × ℤ)} (hp : ∀ c < m.nCells, p.getD c 0 = (ghostStart j m.nCells x0 A0).getD c 0 + ∑ f ∈ range m.nInternalFaces, ghostInternal m x A f c)
    (hq : ∀ c < m.nCells, q.getD c 0 = p.getD c 0 + ∑ b ∈ range m.nBoundaryFaces, ghostBoundary m x A (m.nInternalFaces + b) c) :
    r.length = m.nCells ∧ ∀ c < m.nCells, Approx u (j + m.faceCount c) (val (ix r c)) (x0 c + m.netOutflow x c) (A0 c + m.faceSum A c) := by
  have hl : r.length = m.nCells := hr.length_eq.trans h1
  refine ⟨hl, fun c hc => ?_⟩
  have h2 : Tracks val u j (ix r c) (q.getD c 0) := by
    have := (List.forall₂_iff_get.1 hr).2 c (by omega) (by omega)
    simpa [ix, List.getD, show c < r.length by omega, show c < q.length by omega] using this
  rw [hq c hc, hp c hc, add_assoc, ghost_sum] at h2
  obtain ⟨n, hn, _, h3⟩ := h2
  have hg : (ghostStart j m.nCells x0 A0).getD c 0 = (x0 c, A0 c, (j : ℤ)) := by simp [ghostStart, List.getD, hc]
  rw [hg] at hn h3
  have : n = j + m.faceCount c := by
    simp only [Prod.snd_add] at hn
    omega
  rw [this] at h3
  exact h3

/-- The sum over the faces of each cell, in whatever order the threads add. -/
theorem gaussSum_approx (hF : FloatArith F val u) {m : Mesh F} (h : m.WF) (e : ExecKind) (flux : Nat → Res F) (φ : Nat → F)
    (hfl : ∀ f < m.nFaces, flux f = .ok (φ f)) {x A : Nat → K} {j : Nat} (hx : ∀ f < m.nFaces, Approx u j (val (φ f)) (x f) (A f))
    (a : List F) (ha : a.length = m.nCells) {x0 A0 : Nat → K} (h0 : ∀ c < m.nCells, Approx u j (val (ix a c)) (x0 c) (A0 c)) (stop : Nat)
    (hs : stop = m.nInternalFaces + m.nBoundaryFaces) :
    (do
      let r ← launch1 e 0 m.nInternalFaces (gaussInternal m flux) a
      launch1 e m.nInternalFaces stop (gaussBoundary m flux) r : NR (List F)).Ok (fun r => r.length = m.nCells ∧
        ∀ c < m.nCells, Approx u (j + m.faceCount c) (val (ix r c)) (x0 c + m.netOutflow x c) (A0 c + m.faceSum A c)) := by
  have hfa := h.faces
  have rel : NR.Rel (List.Forall₂ (Tracks val u j))
      (do
        let r ← launch1 e 0 m.nInternalFaces (gaussInternal m flux) a
        launch1 e m.nInternalFaces stop (gaussBoundary m flux) r : NR (List F))
      (do
        let r ← launch1 e 0 m.nInternalFaces (fun f => .ok [Act.atomicAdd () (m.own f) (x f, A f, (1 : ℤ)), Act.atomicAdd () (m.nbr f) (-x f, A f, 1)])
          (ghostStart j m.nCells x0 A0)
        launch1 e m.nInternalFaces stop (fun f => .ok [Act.atomicAdd () (m.fc (f - m.nInternalFaces)) (x f, A f, (1 : ℤ))]) r) := by
    refine NR.Rel.bind (launch1_rel e _ _ (fun f _ hf => ?_) (ghostStart_tracks ha h0)) fun r q hrq => launch1_rel e _ _ (fun f h1 hf => ?_) hrq
    · have hb : gaussInternal m flux f = .ok [Act.atomicAdd () (m.own f) (φ f), Act.atomicSub () (m.nbr f) (φ f)] := by
        simp [gaussInternal, hfl f (by omega), h.rd_owner_int hf, h.rd_nbr hf]
      rw [hb]
      exact Res.Rel.ok (.cons ⟨rfl, rfl, fun y g hy => hy.add hF (hx f (by omega))⟩ (.cons ⟨rfl, rfl, fun y g hy => hy.sub hF (hx f (by omega))⟩ .nil))
    · have hb : gaussBoundary m flux f = .ok [Act.atomicAdd () (m.fc (f - m.nInternalFaces)) (φ f)] := by
        simp [gaussBoundary, hfl f (by omega), h.rd_fc (show f - m.nInternalFaces < m.nBoundaryFaces by omega)]
      rw [hb]
      exact Res.Rel.ok (.cons ⟨rfl, rfl, fun y g hy => hy.add hF (hx f (by omega))⟩ .nil)
  refine (rel.ok_left (P := fun q => q.length = m.nCells ∧ ∃ p : List (K × K × ℤ), (∀ c < m.nCells, p.getD c 0 = (ghostStart j m.nCells x0 A0).getD c 0 +
    ∑ f ∈ range m.nInternalFaces, ghostInternal m x A f c) ∧ ∀ c < m.nCells, q.getD c 0 = p.getD c 0 +
    ∑ b ∈ range m.nBoundaryFaces, ghostBoundary m x A (m.nInternalFaces + b) c) ?_).mono ?_
  · refine NR.Ok.bind (ghostInternal_ok h e x A _ (by simp [ghostStart])) ?_
    rintro p ⟨p1, p2⟩
    exact (ghostBoundary_ok h e x A p p1 stop hs).mono fun q ⟨q1, q2⟩ => ⟨q1, p, p2, q2⟩
  · rintro r ⟨q, hrq, q1, p, p2, q2⟩
    exact tracks_end hrq q1 p2 q2

/-- The same for the plain loops of the serial executor. -/
theorem gaussSumPlain_approx (hF : FloatArith F val u) {m : Mesh F} (h : m.WF) (flux : Nat → Res F) (φ : Nat → F)
    (hfl : ∀ f < m.nFaces, flux f = .ok (φ f)) {x A : Nat → K} {j : Nat} (hx : ∀ f < m.nFaces, Approx u j (val (φ f)) (x f) (A f))
    (a : List F) (ha : a.length = m.nCells) {x0 A0 : Nat → K} (h0 : ∀ c < m.nCells, Approx u j (val (ix a c)) (x0 c) (A0 c)) :
    (do
      let r ← launch1 .serial 0 m.nInternalFaces (gaussInternalPlain m flux) a
      launch1 .serial m.nInternalFaces (m.nInternalFaces + m.nBoundaryFaces) (gaussBoundaryPlain m flux) r : NR (List F)).Ok (fun r => r.length = m.nCells ∧
        ∀ c < m.nCells, Approx u (j + m.faceCount c) (val (ix r c)) (x0 c + m.netOutflow x c) (A0 c + m.faceSum A c)) := by
  have hfa := h.faces
  have rel : NR.Rel (List.Forall₂ (Tracks val u j))
      (do
        let r ← launch1 .serial 0 m.nInternalFaces (gaussInternalPlain m flux) a
        launch1 .serial m.nInternalFaces (m.nInternalFaces + m.nBoundaryFaces) (gaussBoundaryPlain m flux) r : NR (List F))
      (do
        let r ← launch1 .serial 0 m.nInternalFaces (fun f => .ok (Act.plain f () (m.own f) (· + (x f, A f, (1 : ℤ))) ++ Act.plain f () (m.nbr f) (· + (-x f, A f, 1))))
          (ghostStart j m.nCells x0 A0)
        launch1 .serial m.nInternalFaces (m.nInternalFaces + m.nBoundaryFaces) (fun f => .ok (Act.plain f () (m.fc (f - m.nInternalFaces)) (· + (x f, A f, (1 : ℤ))))) r) := by
    refine NR.Rel.bind (launch1_rel .serial _ _ (fun f _ hf => ?_) (ghostStart_tracks ha h0)) fun r q hrq => launch1_rel .serial _ _ (fun f h1 hf => ?_) hrq
    · have hb : gaussInternalPlain m flux f = .ok (Act.plain f () (m.own f) (· + φ f) ++ Act.plain f () (m.nbr f) (· - φ f)) := by
        simp [gaussInternalPlain, hfl f (by omega), h.rd_owner_int hf, h.rd_nbr hf]
      rw [hb]
      exact Res.Rel.ok (forall₂_join (Act.Rel.plain fun y g hy => hy.add hF (hx f (by omega))) (Act.Rel.plain fun y g hy => hy.sub hF (hx f (by omega))))
    · have hb : gaussBoundaryPlain m flux f = .ok (Act.plain f () (m.fc (f - m.nInternalFaces)) (· + φ f)) := by
        simp [gaussBoundaryPlain, hfl f (by omega), h.rd_fc (show f - m.nInternalFaces < m.nBoundaryFaces by omega)]
      rw [hb]
      exact Res.Rel.ok (Act.Rel.plain fun y g hy => hy.add hF (hx f (by omega)))
  refine (rel.ok_left (P := fun q => q.length = m.nCells ∧ ∃ p : List (K × K × ℤ), (∀ c < m.nCells, p.getD c 0 = (ghostStart j m.nCells x0 A0).getD c 0 +
    ∑ f ∈ range m.nInternalFaces, ghostInternal m x A f c) ∧ ∀ c < m.nCells, q.getD c 0 = p.getD c 0 +
    ∑ b ∈ range m.nBoundaryFaces, ghostBoundary m x A (m.nInternalFaces + b) c) ?_).mono ?_
  · refine NR.Ok.bind (ghostInternalPlain_ok h x A _ (by simp [ghostStart])) ?_
    rintro p ⟨p1, p2⟩
    exact (ghostBoundaryPlain_ok h x A p p1).mono fun q ⟨q1, q2⟩ => ⟨q1, p, p2, q2⟩
  · rintro r ⟨q, hrq, q1, p, p2, q2⟩
    exact tracks_end hrq q1 p2 q2

end ops

end NeoFOAM
