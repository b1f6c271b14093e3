import Verif.Props.C74_ExplicitDiffusion

/-!
# C75 – explicit transport with diffusion: conservation and steady states
-/
namespace NeoFOAM
open Finset
variable {K : Type} [Field K] [LinearOrder K] [IsStrictOrderedRing K]

/-- What leaves the domain per unit of time by transport and diffusion. -/
def VolField.leaving (φ : VolField K K) (m : Mesh K) (flux δ : Nat → K) (κ : K) : K :=
  ∑ b ∈ range m.nBoundaryFaces, (flux (m.nInternalFaces + b) * φ.bnd b
    - κ * (ix m.magFaceAreas (m.nInternalFaces + b) * (δ (m.nInternalFaces + b) * (φ.bnd b - φ.cell (m.fc b)))))

/-- The boundary values are those the conditions prescribe. -/
def VolField.Settled (φ : VolField K K) (m : Mesh K) (bcs : List (VolumeBoundary K)) : Prop :=
  ∀ b < m.nBoundaryFaces, ∀ k, Decides bcs b k → Prescribes m φ b k (φ.entry b)

/-- The same values in the cells and on the boundary. -/
def VolField.SameValues (m : Mesh K) (φ ψ : VolField K K) : Prop :=
  (∀ c < m.nCells, ψ.cell c = φ.cell c) ∧ ∀ b < m.nBoundaryFaces, ψ.bnd b = φ.bnd b

/-- A condition decides, or none stores into the face. -/
theorem decides_or {V : Type} (bcs : List (VolumeBoundary V)) (b : Nat) :
    (∃ k, Decides bcs b k) ∨ ∀ c ∈ bcs, c.kind.Writes → ¬ c.patch.Has b := by
  induction bcs with
  | nil => exact .inr (by simp)
  | cons c cs ih =>
    rcases ih with ⟨k, pre, d, post, rfl, rest⟩ | hn
    · exact .inl ⟨k, c :: pre, d, post, rfl, rest⟩
    · by_cases hw : c.kind.Writes ∧ c.patch.Has b
      · exact .inl ⟨c.kind, [], c, cs, rfl, rfl, hw.1, hw.2, hn⟩
      · refine .inr fun d hd => ?_
        rcases List.mem_cons.1 hd with rfl | hd
        · exact fun x y => hw ⟨x, y⟩
        · exact hn d hd

/-- A step that does not change the cells of a field with settled boundary does not change its boundary. -/
theorem EulerStep.settled {m : Mesh K} (h : m.WF) {bcs : List (VolumeBoundary K)} {f : VolField K K → Nat → K} {dt : K} {φ ψ ψ' : VolField K K}
    (hst : EulerStep m bcs f dt ψ ψ') (hs : φ.Settled m bcs) (hsame : φ.SameValues m ψ) (hc : ∀ c < m.nCells, ψ'.cell c = φ.cell c) : φ.SameValues m ψ' := by
  refine ⟨hc, fun b hb => ?_⟩
  rcases decides_or bcs b with ⟨k, hk⟩ | hn
  · have p := hs b hb k hk
    obtain ⟨pre, c, post, hbs, rfl, hkw, hhas, hpost⟩ := hk
    have q := hst.bnd b hb pre c post hbs hkw hhas hpost
    have hcell := hc _ (h.fc_lt b hb)
    have g : ∀ (ξ : VolField K K), ξ.bnd b = (ξ.entry b).value := fun _ => rfl
    rw [g, g]
    cases hkk : c.kind with
    | fixedValue v => rw [hkk] at p q; rw [p.1, q.1]
    | fixedGradient v => rw [hkk] at p q; rw [p.1, q.1, hcell]
    | extrapolated => rw [hkk] at p q; rw [p.1, q.1, hcell]
    | calculated => rw [hkk] at hkw; exact hkw.elim
    | empty => rw [hkk] at hkw; exact hkw.elim
  · have := congrArg (·.value) (hst.keep b hb hn)
    exact Eq.trans this (hsame.2 b hb)

/-- Net outflow depends on the values only. -/
theorem outflow_sameValues {m : Mesh K} (h : m.WF) {φ ψ : VolField K K} (hs : φ.SameValues m ψ) (flux δ : Nat → K) (κ : K) (c : Nat) :
    m.netOutflow (ψ.outflow m flux δ κ) c = m.netOutflow (φ.outflow m flux δ κ) c := by
  have hfa := h.faces
  refine netOutflow_congr h (fun f hf => ?_) c
  simp only [VolField.outflow]
  by_cases hi : f < m.nInternalFaces
  · simp only [hi, if_true, hs.1 _ (h.own_lt_int hi), hs.1 _ (h.nbr_lt f hi)]
  · obtain ⟨b, rfl⟩ : ∃ b, f = m.nInternalFaces + b := ⟨f - m.nInternalFaces, by omega⟩
    simp only [hi, if_false, Nat.add_sub_cancel_left, hs.2 b (by omega), hs.1 _ (h.fc_lt b (by omega))]

variable (e : ExecKind) {m : Mesh K} (h : m.WF) (bcs : List (VolumeBoundary K)) (hb : ∀ c ∈ bcs, c.patch.end_ ≤ m.nBoundaryFaces)
    (sp : SparsityPattern) (tiny : K) (ht : 0 ≤ tiny) (sqrt : K → K) (hs : IsSqrt sqrt) (gjunk : Nat → K) (g : Geometry K)
    (hg : geometryScheme e m tiny sqrt gjunk (.ok g)) (junk : Nat → K) (flux gamma : List K) (hfl : flux.length = m.nFaces)
    (κ : K) (eqn : Expr) (ops : OpsOf K K)
    (hbuild : ∀ st, (explicitDiffTree κ).build (explicitDiffOps e m sp .upwind g.weights junk flux g.nonOrthDeltaCoeffs gamma st) = .ok (eqn, ops st))
    (table : SolverTable K) {fvSchemes : Dict} (fvSolution : Dict) (hd : AsksFor fvSchemes "forwardEuler")
    (st : TimeState K K) (ho : st.sol.On m) (hsy : st.Synced) (t : K) (dt : Nat → K)
include h hb ht hs hg hfl hbuild hd ho hsy

/-- **C75, conservation**: for every valid mesh with non-zero volumes, flux, diffusion coefficient, boundary conditions, initial field and time steps, on every
executor: the total of `u` after `n` steps is the initial one minus the sum over the steps of `dt` times what leaves through the boundary by transport and
diffusion. -/
theorem C75_conservation (hv : ∀ c < m.nCells, m.vol c ≠ 0) :
    ∃ u : Nat → TimeState K K, u 0 = st ∧
      (∀ k out, timeLoop (fun d st => dslSolve e m bcs table fvSchemes fvSolution ops eqn st t d) dt k st out ↔ out = .ok (u k)) ∧
      ∀ n, (u n).sol.total m = st.sol.total m - ∑ k ∈ range n, dt k * (u k).sol.leaving m (ix flux) (ix g.nonOrthDeltaCoeffs) κ := by
  obtain ⟨u, h0, h1, h2⟩ := explicitDiff_upwind e h bcs hb sp tiny ht sqrt hs gjunk g hg junk flux gamma hfl κ eqn ops hbuild table fvSolution hd st ho hsy t dt
  refine ⟨u, h0, h1, fun n => ?_⟩
  induction n with
  | zero => simp [h0]
  | succ n ih =>
    rw [Finset.sum_range_succ, ← sub_sub, ← ih]
    have hstep : (u (n + 1)).sol.total m = ∑ c ∈ range m.nCells, (m.vol c * (u n).sol.cell c
        - dt n * m.netOutflow ((u n).sol.outflow m (ix flux) (ix g.nonOrthDeltaCoeffs) κ) c) := by
      refine Finset.sum_congr rfl fun c hc => ?_
      rw [mem_range] at hc
      have := hv c hc
      rw [(h2 n).cells c hc, smul_eq_mul]
      field_simp
    rw [hstep, Finset.sum_sub_distrib, ← Finset.mul_sum, sum_netOutflow h]
    congr 2
    refine Finset.sum_congr rfl fun b _ => ?_
    simp only [VolField.outflow, show ¬ m.nInternalFaces + b < m.nInternalFaces by omega, if_false, Nat.add_sub_cancel_left]

/-- **C75, steady states**: if the initial boundary values are those the conditions prescribe, then no step changes any value of the field exactly if in every
cell what leaves is what enters. -/
theorem C75_steady (hv : ∀ c < m.nCells, m.vol c ≠ 0) (hset : st.sol.Settled m bcs) (hdt : ∀ k, dt k ≠ 0) :
    ∃ u : Nat → TimeState K K, u 0 = st ∧
      (∀ k out, timeLoop (fun d st => dslSolve e m bcs table fvSchemes fvSolution ops eqn st t d) dt k st out ↔ out = .ok (u k)) ∧
      ((∀ n, st.sol.SameValues m (u n).sol) ↔ ∀ c < m.nCells, m.netOutflow (st.sol.outflow m (ix flux) (ix g.nonOrthDeltaCoeffs) κ) c = 0) := by
  obtain ⟨u, h0, h1, h2⟩ := explicitDiff_upwind e h bcs hb sp tiny ht sqrt hs gjunk g hg junk flux gamma hfl κ eqn ops hbuild table fvSolution hd st ho hsy t dt
  refine ⟨u, h0, h1, fun hsame c hc => ?_, fun hz n => ?_⟩
  · have a := (hsame 1).1 c hc
    rw [(h2 0).cells c hc, h0, smul_eq_mul] at a
    have : dt 0 * (1 / m.vol c * m.netOutflow (st.sol.outflow m (ix flux) (ix g.nonOrthDeltaCoeffs) κ) c) = 0 := by linear_combination -a
    rcases mul_eq_zero.1 this with h' | h'
    · exact absurd h' (hdt 0)
    · rcases mul_eq_zero.1 h' with h' | h'
      · exact absurd h' (one_div_ne_zero (hv c hc))
      · exact h'
  · induction n with
    | zero => rw [h0]; exact ⟨fun _ _ => rfl, fun _ _ => rfl⟩
    | succ n ih =>
      refine (h2 n).settled h hset ih fun c hc => ?_
      rw [(h2 n).cells c hc, outflow_sameValues h ih, hz c hc, ih.1 c hc]
      simp

/-! ### The hypotheses can be met -/

omit h hb ht hs hg hfl hbuild hd ho hsy in
/-- On every mesh with positive volumes, for every flux and diffusion, there are positive time steps that are small enough. -/
theorem exists_smallStep (hv : ∀ c < m.nCells, 0 < m.vol c) (flux δ : Nat → K) (κ : K) : ∃ dt, 0 < dt ∧ SmallStep m flux δ κ dt := by
  have : ∀ n ≤ m.nCells, ∃ dt, 0 < dt ∧ ∀ c < n, dt * (1 / 2 * m.absFlux flux c + κ * m.absFlux (fun f => ix m.magFaceAreas f * δ f) c) ≤ m.vol c := by
    intro n
    induction n with
    | zero => exact fun _ => ⟨1, one_pos, fun c hc => absurd hc (Nat.not_lt_zero c)⟩
    | succ n ih =>
      intro hn
      obtain ⟨d, hd, hd'⟩ := ih (by omega)
      have hvn := hv n (by omega)
      set S : K := 1 / 2 * m.absFlux flux n + κ * m.absFlux (fun f => ix m.magFaceAreas f * δ f) n with hS
      have hpos : 0 < 1 + |S| := by have := abs_nonneg S; linarith
      refine ⟨min d (m.vol n / (1 + |S|)), lt_min hd (div_pos hvn hpos), fun c hc => ?_⟩
      have key : ∀ (x d1 d2 v : K), 0 < d1 → d1 ≤ d2 → d2 * x ≤ v → 0 < v → d1 * x ≤ v := by
        intro x d1 d2 v h1 h2 h3 h4
        rcases le_or_gt 0 x with hx | hx
        · exact (mul_le_mul_of_nonneg_right h2 hx).trans h3
        · exact (mul_nonpos_of_nonneg_of_nonpos h1.le hx.le).trans h4.le
      rcases Nat.lt_succ_iff_lt_or_eq.1 hc with hc | rfl
      · exact key _ _ d _ (lt_min hd (div_pos hvn hpos)) (min_le_left _ _) (hd' c hc) (hv c (by omega))
      · rw [← hS]
        refine key _ _ (m.vol c / (1 + |S|)) _ (lt_min hd (div_pos hvn hpos)) (min_le_right _ _) ?_ hvn
        rw [div_mul_eq_mul_div, div_le_iff₀ hpos]
        have := le_abs_self S
        exact mul_le_mul_of_nonneg_left (by linarith) hvn.le
  exact this _ le_rfl

omit h hb ht hs hg hfl hbuild hd ho hsy e sp tiny sqrt gjunk g junk gamma eqn ops table fvSolution st t dt bcs flux in
/-- Bounds and boundary conditions in the duct, and a steady field. -/
example (κ : ℝ) (δ : Nat → ℝ) : BoundedBC duct (ix ductFlux) (ductBCs .extrapolated) 0 1 ∧ (ductField 1).Bounded duct (ix ductFlux) 0 1 ∧
    (ductField 1).Settled duct (ductBCs .extrapolated) ∧
    (∀ c < duct.nCells, duct.netOutflow ((ductField 1).outflow duct (ix ductFlux) δ κ) c = 0) ∧ ∀ f < duct.nFaces, duct.span f ≠ 0 := by
  have two : ∀ b, b < 2 → b = 0 ∨ b = 1 := by omega
  have dec1 : Decides (ductBCs .extrapolated) 1 .extrapolated :=
    ⟨[⟨⟨0, 0, 1⟩, .fixedValue 1⟩], ⟨⟨1, 1, 2⟩, .extrapolated⟩, [], rfl, rfl, trivial, ⟨le_rfl, Nat.lt_succ_self 1⟩, by simp⟩
  have dec0 : Decides (ductBCs .extrapolated) 0 (.fixedValue (1 : ℝ)) :=
    ⟨[], ⟨⟨0, 0, 1⟩, .fixedValue 1⟩, [⟨⟨1, 1, 2⟩, .extrapolated⟩], rfl, rfl, trivial, ⟨le_rfl, Nat.zero_lt_one⟩, by simp [Patch.Has]⟩
  refine ⟨⟨?_, ?_⟩, ⟨?_, ?_, ?_⟩, ?_, ?_, ?_⟩
  · intro b hb hp
    rcases two b hb with rfl | rfl
    · simp [duct, ix, ductFlux] at hp; norm_num at hp
    · exact ⟨_, dec1, trivial⟩
  · intro b hb
    rcases two b hb with rfl | rfl
    · exact ⟨_, dec0, .inr ⟨1, rfl, by norm_num⟩⟩
    · exact ⟨_, dec1, .inl trivial⟩
  · intro c hc
    rcases two c hc with rfl | rfl <;> simp [ductField, VolField.cell]
  · intro b hb
    rcases two b hb with rfl | rfl <;> simp [ductField, VolField.bnd]
  · intro b hb _
    rcases two b hb with rfl | rfl <;> simp [ductField, VolField.bnd, VolField.cell, duct, Mesh.fc]
  · intro b hb k hk
    obtain ⟨pre, c, post, hbs, rfl, -, hhas, hpost⟩ := hk
    have hmem : c ∈ ductBCs .extrapolated := by rw [hbs]; simp
    rcases two b hb with rfl | rfl <;> simp only [ductBCs, List.mem_cons, List.not_mem_nil, or_false] at hmem <;> rcases hmem with rfl | rfl <;>
      simp_all [Prescribes, ductField, VolField.entry, VolField.cell, Patch.Has, duct, Mesh.fc]
  · intro c hc
    rcases two c hc with rfl | rfl <;>
      simp [duct, Mesh.netOutflow, VolField.outflow, Mesh.own, Mesh.nbr, Mesh.fc, ix, ductFlux, ductField, VolField.cell, VolField.bnd, Finset.sum_range_succ]
  · intro f hf
    have : f = 0 ∨ f = 1 ∨ f = 2 := by have : f < 3 := hf; omega
    rcases this with rfl | rfl | rfl <;> simp [duct, Mesh.span, Mesh.own, Mesh.nbr, Mesh.fc, Mesh.ctr, Mesh.fctr] <;> norm_num

end NeoFOAM
