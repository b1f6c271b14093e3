import Verif.Spec.Calls
import Verif.Proofs.ConvDiff
import Verif.Props.C32_Steady
import Verif.Props.C34_ForwardEuler

/-!
# C76 – solve solves the equation as it is written with the `exp::` and `imp::` functions
-/
namespace NeoFOAM
open Finset
variable {K : Type} [Field K]

/-! ### Linear algebra of compositions -/

theorem implicitResidual_row (m : Mesh K) (a : Nat → K) (dv : Slot → K) (dr x : Nat → K) (c : Nat) :
    implicitResidual m (fun s => a (s.row m) * dv s) (fun i => a i * dr i) x c = a c * implicitResidual m dv dr x c := by
  unfold implicitResidual
  have e1 : (∑ f ∈ range m.nInternalFaces, if m.own f = c then a (Slot.row m (.upper f)) * dv (.upper f) * x (m.nbr f) else 0)
      = a c * ∑ f ∈ range m.nInternalFaces, if m.own f = c then dv (.upper f) * x (m.nbr f) else 0 := by
    rw [Finset.mul_sum]
    refine Finset.sum_congr rfl fun f _ => ?_
    split
    · rename_i h; simp only [Slot.row, h]; ring
    · simp
  have e2 : (∑ f ∈ range m.nInternalFaces, if m.nbr f = c then a (Slot.row m (.lower f)) * dv (.lower f) * x (m.own f) else 0)
      = a c * ∑ f ∈ range m.nInternalFaces, if m.nbr f = c then dv (.lower f) * x (m.own f) else 0 := by
    rw [Finset.mul_sum]
    refine Finset.sum_congr rfl fun f _ => ?_
    split
    · rename_i h; simp only [Slot.row, h]; ring
    · simp
  rw [e1, e2]
  simp only [Slot.row]
  ring

theorem implicitResidual_zero (m : Mesh K) (x : Nat → K) (c : Nat) : implicitResidual m (fun _ => 0) (fun _ => 0) x c = 0 := by
  simp [implicitResidual]

theorem OpT.value_residual (m : Mesh K) (dv : Nat → Slot → K) (dr : Nat → Nat → K) (x : Nat → K) (c : Nat) : ∀ t : OpT K,
    implicitResidual m (t.value (Slot.row m) dv) (t.value id dr) x c = t.value id (fun h => implicitResidual m (dv h) (dr h) x) c
  | .var _ _ => rfl
  | .smul r t => by
    have := implicitResidual_row m (fun _ => r) (t.value (Slot.row m) dv) (t.value id dr) x c
    rw [OpT.value_residual m dv dr x c t] at this
    exact this
  | .cmul k t => by
    have := implicitResidual_row m (fun i => k.value i) (t.value (Slot.row m) dv) (t.value id dr) x c
    rw [OpT.value_residual m dv dr x c t] at this
    exact this
  | .fmul f t => by
    have := implicitResidual_row m (fun i => f.getD i 0) (t.value (Slot.row m) dv) (t.value id dr) x c
    rw [OpT.value_residual m dv dr x c t] at this
    exact this

theorem OpT.valueOf_residual (m : Mesh K) (k : OpSort) (dv : Nat → Slot → K) (dr : Nat → Nat → K) (x : Nat → K) (c : Nat) (t : OpT K) :
    implicitResidual m (t.valueOf k (Slot.row m) dv) (t.valueOf k id dr) x c = t.valueOf k id (fun h => implicitResidual m (dv h) (dr h) x) c := by
  by_cases h : t.sort = k
  · have e : ∀ {ι V : Type} [AddCommGroup V] [Module K V] (loc : ι → Nat) (val : Nat → ι → V), t.valueOf k loc val = t.value loc val := by
      intros; funext i; simp only [OpT.valueOf, if_pos h]
    rw [e, e, e]
    exact OpT.value_residual m dv dr x c t
  · have e : ∀ {ι V : Type} [AddCommGroup V] [Module K V] (loc : ι → Nat) (val : Nat → ι → V), t.valueOf k loc val = fun _ => 0 := by
      intros; funext i; simp only [OpT.valueOf, if_neg h]
    rw [e, e, e]
    exact implicitResidual_zero m x c

/-- What a composition of terms adds to the equation of a cell is the composition of what the terms add. -/
theorem ExT.value_residual (m : Mesh K) (k : OpSort) (dv : Nat → Slot → K) (dr : Nat → Nat → K) (x : Nat → K) (c : Nat) : ∀ t : ExT K,
    implicitResidual m (t.value k (Slot.row m) dv) (t.value k id dr) x c = t.value k id (fun h => implicitResidual m (dv h) (dr h) x) c
  | .obj e => by
    have key : ∀ l : List Nat, implicitResidual m (fun s => (l.map fun h => dv h s).sum) (fun i => (l.map fun h => dr h i).sum) x c
        = (l.map fun h => implicitResidual m (dv h) (dr h) x c).sum := by
      intro l
      induction l with
      | nil => exact implicitResidual_zero m x c
      | cons h l ih =>
        simp only [List.map_cons, List.sum_cons]
        rw [implicitResidual_add, ih]
    exact key _
  | .one a => OpT.valueOf_residual m k dv dr x c a
  | .addOO a b => by
    have := implicitResidual_add (m := m) (a.valueOf k (Slot.row m) dv) (b.valueOf k (Slot.row m) dv) (a.valueOf k id dr) (b.valueOf k id dr) x c
    rw [OpT.valueOf_residual, OpT.valueOf_residual] at this
    exact this
  | .subOO a b => by
    have := implicitResidual_sub m (a.valueOf k (Slot.row m) dv) (b.valueOf k (Slot.row m) dv) (a.valueOf k id dr) (b.valueOf k id dr) x c
    rw [OpT.valueOf_residual, OpT.valueOf_residual] at this
    exact this
  | .addEE a b => by
    have := implicitResidual_add (m := m) (a.value k (Slot.row m) dv) (b.value k (Slot.row m) dv) (a.value k id dr) (b.value k id dr) x c
    rw [ExT.value_residual m k dv dr x c a, ExT.value_residual m k dv dr x c b] at this
    exact this
  | .subEE a b => by
    have := implicitResidual_sub m (a.value k (Slot.row m) dv) (b.value k (Slot.row m) dv) (a.value k id dr) (b.value k id dr) x c
    rw [ExT.value_residual m k dv dr x c a, ExT.value_residual m k dv dr x c b] at this
    exact this
  | .addEO a b _ => by
    have := implicitResidual_add (m := m) (a.value k (Slot.row m) dv) (b.valueOf k (Slot.row m) dv) (a.value k id dr) (b.valueOf k id dr) x c
    rw [ExT.value_residual m k dv dr x c a, OpT.valueOf_residual] at this
    exact this
  | .subEO a b _ => by
    have := implicitResidual_sub m (a.value k (Slot.row m) dv) (b.valueOf k (Slot.row m) dv) (a.value k id dr) (b.valueOf k id dr) x c
    rw [ExT.value_residual m k dv dr x c a, OpT.valueOf_residual] at this
    exact this
  | .smul r a => by
    have := implicitResidual_row m (fun _ => r) (a.value k (Slot.row m) dv) (a.value k id dr) x c
    rw [ExT.value_residual m k dv dr x c a] at this
    exact this

theorem OpT.value_lin {V : Type} [AddCommGroup V] [Module K V] {ι : Type} (loc : ι → Nat) (u v : Nat → ι → V) (r : K) (i : ι) : ∀ t : OpT K,
    t.value loc (fun h i => u h i + r • v h i) i = t.value loc u i + r • t.value loc v i
  | .var _ _ => rfl
  | .smul a t => by simp only [OpT.value]; rw [OpT.value_lin loc u v r i t, smul_add, smul_comm a r]
  | .cmul a t => by simp only [OpT.value]; rw [OpT.value_lin loc u v r i t, smul_add, smul_comm _ r]
  | .fmul a t => by simp only [OpT.value]; rw [OpT.value_lin loc u v r i t, smul_add, smul_comm _ r]

theorem OpT.valueOf_lin {V : Type} [AddCommGroup V] [Module K V] {ι : Type} (k : OpSort) (loc : ι → Nat) (u v : Nat → ι → V) (r : K) (i : ι) (t : OpT K) :
    t.valueOf k loc (fun h i => u h i + r • v h i) i = t.valueOf k loc u i + r • t.valueOf k loc v i := by
  unfold OpT.valueOf
  split
  · exact OpT.value_lin loc u v r i t
  · simp

theorem ExT.value_lin {V : Type} [AddCommGroup V] [Module K V] {ι : Type} (k : OpSort) (loc : ι → Nat) (u v : Nat → ι → V) (r : K) (i : ι) : ∀ t : ExT K,
    t.value k loc (fun h i => u h i + r • v h i) i = t.value k loc u i + r • t.value k loc v i
  | .obj e => by
    have key : ∀ l : List Nat, (l.map fun h => u h i + r • v h i).sum = (l.map fun h => u h i).sum + r • (l.map fun h => v h i).sum := by
      intro l
      induction l with
      | nil => simp
      | cons h l ih => simp only [List.map_cons, List.sum_cons, ih, smul_add]; abel
    exact key _
  | .one a => OpT.valueOf_lin k loc u v r i a
  | .addOO a b => by simp only [ExT.value, OpT.valueOf_lin, smul_add]; abel
  | .subOO a b => by simp only [ExT.value, OpT.valueOf_lin, smul_sub]; abel
  | .addEE a b => by simp only [ExT.value, ExT.value_lin k loc u v r i a, ExT.value_lin k loc u v r i b, smul_add]; abel
  | .subEE a b => by simp only [ExT.value, ExT.value_lin k loc u v r i a, ExT.value_lin k loc u v r i b, smul_sub]; abel
  | .addEO a b _ => by simp only [ExT.value, ExT.value_lin k loc u v r i a, OpT.valueOf_lin, smul_add]; abel
  | .subEO a b _ => by simp only [ExT.value, ExT.value_lin k loc u v r i a, OpT.valueOf_lin, smul_sub]; abel
  | .smul s a => by simp only [ExT.value, ExT.value_lin k loc u v r i a, smul_add]; rw [smul_comm s r]

theorem OpT.value_congr {V : Type} [AddCommGroup V] [Module K V] {ι : Type} (loc : ι → Nat) (u v : Nat → ι → V) (i : ι) : ∀ t : OpT K,
    u t.leaf i = v t.leaf i → t.value loc u i = t.value loc v i
  | .var _ _, h => h
  | .smul a t, h => by simp only [OpT.value]; rw [OpT.value_congr loc u v i t h]
  | .cmul a t, h => by simp only [OpT.value]; rw [OpT.value_congr loc u v i t h]
  | .fmul a t, h => by simp only [OpT.value]; rw [OpT.value_congr loc u v i t h]

theorem OpT.valueOf_congr {V : Type} [AddCommGroup V] [Module K V] {ι : Type} (k : OpSort) (loc : ι → Nat) (u v : Nat → ι → V) (i : ι) (t : OpT K)
    (h : ∀ h ∈ (if t.sort = k then [t.leaf] else []), u h i = v h i) : t.valueOf k loc u i = t.valueOf k loc v i := by
  unfold OpT.valueOf
  split
  · rename_i hs
    rw [if_pos hs] at h
    exact OpT.value_congr loc u v i t (h _ (by simp))
  · rfl

/-- The sum depends on the terms it refers to. -/
theorem ExT.value_congr {V : Type} [AddCommGroup V] [Module K V] {ι : Type} (k : OpSort) (loc : ι → Nat) (u v : Nat → ι → V) (i : ι) : ∀ t : ExT K,
    (∀ h ∈ t.leaves k, u h i = v h i) → t.value k loc u i = t.value k loc v i
  | .obj e, h => by
    have key : ∀ l : List Nat, (∀ h ∈ l, u h i = v h i) → (l.map fun h => u h i).sum = (l.map fun h => v h i).sum :=
      fun l hl => by rw [List.map_congr_left hl]
    exact key _ h
  | .one a, h => OpT.valueOf_congr k loc u v i a h
  | .addOO a b, h => by
    simp only [ExT.value]
    rw [OpT.valueOf_congr k loc u v i a fun x hx => h x (List.mem_append_left _ hx),
      OpT.valueOf_congr k loc u v i b fun x hx => h x (List.mem_append_right _ hx)]
  | .subOO a b, h => by
    simp only [ExT.value]
    rw [OpT.valueOf_congr k loc u v i a fun x hx => h x (List.mem_append_left _ hx),
      OpT.valueOf_congr k loc u v i b fun x hx => h x (List.mem_append_right _ hx)]
  | .addEE a b, h => by
    simp only [ExT.value]
    rw [ExT.value_congr k loc u v i a fun x hx => h x (List.mem_append_left _ hx),
      ExT.value_congr k loc u v i b fun x hx => h x (List.mem_append_right _ hx)]
  | .subEE a b, h => by
    simp only [ExT.value]
    rw [ExT.value_congr k loc u v i a fun x hx => h x (List.mem_append_left _ hx),
      ExT.value_congr k loc u v i b fun x hx => h x (List.mem_append_right _ hx)]
  | .addEO a b _, h => by
    simp only [ExT.value]
    rw [ExT.value_congr k loc u v i a fun x hx => h x (List.mem_append_left _ hx),
      OpT.valueOf_congr k loc u v i b fun x hx => h x (List.mem_append_right _ hx)]
  | .subEO a b _, h => by
    simp only [ExT.value]
    rw [ExT.value_congr k loc u v i a fun x hx => h x (List.mem_append_left _ hx),
      OpT.valueOf_congr k loc u v i b fun x hx => h x (List.mem_append_right _ hx)]
  | .smul r a, h => by
    simp only [ExT.value]
    rw [ExT.value_congr k loc u v i a h]

/-- A sum without terms is zero. -/
theorem ExT.value_none {V : Type} [AddCommGroup V] [Module K V] {ι : Type} (k : OpSort) (loc : ι → Nat) (u : Nat → ι → V) (i : ι) (t : ExT K)
    (h : t.leaves k = []) : t.value k loc u i = 0 := by
  have h1 := ExT.value_lin k loc (fun _ _ => (0 : V)) (fun _ _ => (0 : V)) (1 : K) i t
  have h2 := ExT.value_congr k loc (fun h i => (0 : V) + (1 : K) • (0 : V)) (fun _ _ => (0 : V)) i t (by simp [h])
  have h3 := ExT.value_congr k loc u (fun _ _ => (0 : V)) i t (by simp [h])
  rw [h2, one_smul] at h1
  rw [h3]
  exact left_eq_add.1 h1

theorem only_length {W : Type} (k k' : OpSort) (o : OpModel K W) (h : Nat) : (OpT.only k k' o).length = (if k' = k then [h] else []).length := by
  unfold OpT.only
  split <;> rfl

theorem ExT.denote_length {W : Type} {s : OpHeap K W} (k : OpSort) : ∀ (t : ExT K) (T : List (OpModel K W)), t.denote s k = .ok T → T.length = (t.leaves k).length
  | .obj e, T, h => (ats_of_derefs h).length_eq.symm
  | .one a, T, h => by
    simp only [ExT.denote, Res.bind_eq_ok] at h
    obtain ⟨o, ho, h⟩ := h
    cases h
    exact only_length k a.sort o a.leaf
  | .addOO a b, T, h => by
    simp only [ExT.denote, Res.bind_eq_ok] at h
    obtain ⟨o, ho, p, hp, h⟩ := h
    cases h
    simp only [ExT.leaves, List.length_append]
    rw [only_length k _ _ a.leaf, only_length k _ _ b.leaf]
  | .subOO a b, T, h => by
    simp only [ExT.denote, Res.bind_eq_ok] at h
    obtain ⟨o, ho, p, hp, c, hc, h⟩ := h
    cases h
    simp only [ExT.leaves, List.length_append]
    rw [only_length k _ _ a.leaf, only_length k _ _ b.leaf]
  | .addEE a b, T, h => by
    simp only [ExT.denote, Res.bind_eq_ok] at h
    obtain ⟨o, ho, p, hp, h⟩ := h
    cases h
    simp only [ExT.leaves, List.length_append, ExT.denote_length k a _ ho, ExT.denote_length k b _ hp]
  | .subEE a b, T, h => by
    simp only [ExT.denote, Res.bind_eq_ok] at h
    obtain ⟨o, ho, p, hp, h⟩ := h
    cases h
    simp only [ExT.leaves, List.length_append, List.length_map, ExT.denote_length k a _ ho, ExT.denote_length k b _ hp]
  | .addEO a b hb, T, h => by
    simp only [ExT.denote, Res.bind_eq_ok] at h
    obtain ⟨o, ho, p, hp, h⟩ := h
    cases h
    simp only [ExT.leaves, List.length_append, ExT.denote_length k a _ ho, hb, only_length k _ _ b.leaf]
  | .subEO a b hb, T, h => by
    simp only [ExT.denote, Res.bind_eq_ok] at h
    obtain ⟨o, ho, p, hp, h⟩ := h
    cases h
    simp only [ExT.leaves, List.length_append, ExT.denote_length k a _ ho, hb, only_length k _ _ b.leaf]
  | .smul r a, T, h => by
    simp only [ExT.denote, Res.bind_eq_ok] at h
    obtain ⟨o, ho, h⟩ := h
    cases h
    simp only [ExT.leaves, List.length_map, ExT.denote_length k a _ ho]

/-- The expression has one operator for every term of the composition. -/
theorem ExT.build_length {W : Type} {s s' : OpHeap K W} {t : ExT K} {n : Nat} (hl : ∀ k, ∀ h ∈ t.leaves k, h < s.length) (hf : t.FieldsOK s n)
    {e : Expr} (hb : t.build s = .ok (e, s')) : e.temporal.length = (t.leaves .temporal).length ∧ e.spatial.length = (t.leaves .spatial).length := by
  obtain ⟨T, hT⟩ := ExT.denote_ok .temporal t hl hf
  obtain ⟨S, hS⟩ := ExT.denote_ok .spatial t hl hf
  obtain ⟨e', s2, he, hp, hh, hfr⟩ := ExT.build_gives t T S hT hS s List.prefix_rfl
  rw [hb] at he
  cases he
  exact ⟨by rw [hh.temporal.length_eq, ExT.denote_length .temporal t T hT], by rw [hh.spatial.length_eq, ExT.denote_length .spatial t S hS]⟩

/-! ### What one call contributes -/

variable [LinearOrder K]

/-- Coefficients. -/
def Call.dv (S : Setting K) (dt : K) (st : TimeState K K) : Call K → Slot → K
  | .impDdt => diagDelta fun i => 1 * S.m.vol i / dt
  | .impSource k _ => diagDelta fun i => 1 * ix k i * S.m.vol i
  | .impDiv flux of => divDelta S.m (ix flux) (ix (of.getD st.sol).bVF) (fun _ => 1)
  | .impLaplacian gamma of => lapDelta S.m (ix S.δ) (ix gamma) (ix (of.getD st.sol).bVF) (fun _ => 1)
  | _ => fun _ => 0

/-- Right-hand sides. -/
def Call.dr (S : Setting K) (dt : K) (st : TimeState K K) : Call K → Nat → K
  | .impDdt => fun i => 1 * S.m.vol i / dt * ix st.oldTime i
  | .impDiv flux of => divRhs S.m (ix flux) (ix (of.getD st.sol).bVF) (ix (of.getD st.sol).bRefValue) (fun _ => 1)
  | .impLaplacian gamma of => lapRhs S.m (ix S.δ) (ix gamma) (ix (of.getD st.sol).bVF) (ix (of.getD st.sol).bRefValue) (ix (of.getD st.sol).bRefGrad) (fun _ => 1)
  | _ => fun _ => 0

/-- Explicit values. -/
def Call.ev (S : Setting K) (st : TimeState K K) : Call K → Nat → K
  | .expDiv flux of => fun i => 1 / S.m.vol i * S.m.netOutflow (fun f => ix flux f * Mesh.schemeFace S.sch S.m (ix S.w) (ix flux) (of.getD st.sol) f) i
  | .expFlux flux => fun i => 1 / S.m.vol i * S.m.netOutflow (ix flux) i
  | .expSource k of => fun i => 1 * (ix k i * (of.getD st.sol).cell i)
  | _ => fun _ => 0

theorem Setting.OK.patt {S : Setting K} (h : S.OK) : S.sp.For S.m := by
  obtain ⟨_, hee, hp⟩ := pattern_for S.m h.wf h.deg S.e _ h.built
  cases hee
  exact hp

theorem Setting.OK.again {S : Setting K} (h : S.OK) : ∀ out, sparsityUpdate S.e S.m out ↔ out = .ok S.sp :=
  fun out => ⟨fun ho => sparsity_single S.m h.wf (h.rep.imp id (·.1)) _ _ ho h.built, fun ho => ho ▸ h.built⟩

theorem arg_on {m : Mesh K} {of : Option (VolField K K)} (h : ∀ ψ ∈ of, ψ.On m) {φ : VolField K K} (hφ : φ.On m) : (of.getD φ).On m := by
  cases of with
  | none => exact hφ
  | some ψ => exact h ψ rfl

theorem Mesh.Reproducible.bnd {m : Mesh K} {e : ExecKind} (h : m.Reproducible e) : e = .serial ∨ m.BndDistinct := h.imp id (·.2)
theorem Mesh.Reproducible.chain {m : Mesh K} {e : ExecKind} (h : m.Reproducible e) : e = .serial ∨ m.Chain := h.imp id (·.1)

theorem default_on (n : Nat) : (Coeff.default : Coeff K).On n (fun _ => 1) := fun _ _ => rfl
theorem one_on (n : Nat) : (Coeff.ofScalar (1 : K)).On n (fun _ => 1) := fun _ _ => rfl

theorem Call.impl {S : Setting K} (h : S.OK) {st : TimeState K K} (ho : st.sol.On S.m) (hol : st.oldTime.length = S.m.nCells) (t dt : K) (a : Call K)
    (hf : a.Fits S.m) : ImplTerm S.m S.sp t dt (a.op S st) (a.dv S dt st) (a.dr S dt st) := by
  cases a with
  | expDiv flux of => exact implTerm_explicit t dt rfl (default_on _)
  | expFlux flux => exact implTerm_explicit t dt rfl (one_on _)
  | expSource k of => exact implTerm_explicit t dt rfl (default_on _)
  | impDdt => exact C31_term_ddt_implicit h.wf h.patt st.sol hol S.e (default_on _) t dt
  | impSource k of => exact C31_term_source_implicit h.wf h.patt _ hf.1 S.e (default_on _) t dt
  | impDiv flux of => exact C31_term_div_implicit h.wf h.patt (arg_on hf.2 ho) S.w hf.1 S.sch S.e h.rep.bnd S.junk (default_on _) t dt
  | impLaplacian gamma of => exact C31_term_laplacian_implicit h.wf h.patt (arg_on hf.2 ho) h.δLen hf.1 S.e h.rep.bnd S.junk (default_on _) t dt

theorem Call.expl {S : Setting K} (h : S.OK) {st : TimeState K K} (ho : st.sol.On S.m) (t dt : K) (a : Call K)
    (hf : a.Fits S.m) : ExplTerm S.m.nCells t dt (a.op S st) (a.ev S st) := by
  cases a with
  | expDiv flux of => exact C31_term_div h.wf S.sp (arg_on hf.2 ho) h.wLen hf.1 S.sch S.e S.junk (default_on _) t dt
  | expFlux flux => exact C31_term_surfaceIntegrate h.wf hf S.e (one_on _) t dt
  | expSource k of => exact C31_term_source S.sp (arg_on hf.2 ho) hf.1 S.e (default_on _) t dt
  | impDdt => exact explTerm_implicit t dt rfl (default_on _)
  | impSource k of => exact explTerm_implicit t dt rfl (default_on _)
  | impDiv flux of => exact explTerm_implicit t dt rfl (default_on _)
  | impLaplacian gamma of => exact explTerm_implicit t dt rfl (default_on _)

/-- What a call adds to the equation of a cell is the volume times what it stands for. -/
theorem Call.residual {S : Setting K} (dt : K) (st : TimeState K K) (x : Nat → K) (c : Nat) (hv : S.m.vol c ≠ 0) (a : Call K) (hs : a.OfSolution) :
    implicitResidual S.m (a.dv S dt st) (a.dr S dt st) x c + S.m.vol c * a.ev S st c = S.m.vol c * a.value S dt st x c := by
  cases a with
  | expDiv flux of => simp only [Call.dv, Call.dr, Call.ev, Call.value, implicitResidual_zero]; ring
  | expFlux flux => simp only [Call.dv, Call.dr, Call.ev, Call.value, implicitResidual_zero]; ring
  | expSource k of => simp only [Call.dv, Call.dr, Call.ev, Call.value, implicitResidual_zero]; ring
  | impDdt =>
    simp only [Call.dv, Call.dr, Call.ev, Call.value]
    rw [C33_ddt]; ring
  | impSource k of =>
    cases hs
    simp only [Call.dv, Call.dr, Call.ev, Call.value, argCells]
    simp [implicitResidual, diagDelta]; ring
  | impDiv flux of =>
    cases hs
    simp only [Call.dv, Call.dr, Call.ev, Call.value, argCells, Option.getD_none]
    have e4 : implicitResidual S.m (divDelta S.m (ix flux) (ix st.sol.bVF) fun _ => 1) (divRhs S.m (ix flux) (ix st.sol.bVF) (ix st.sol.bRefValue) fun _ => 1) x c
        = S.m.netOutflow (fun f => ix flux f * st.sol.impFace S.m (ix flux) x f) c := by
      have := divResidual S.m st.sol flux (fun _ => 1) x c
      rw [one_mul] at this
      exact this
    have e6 : st.sol.outFlux S.m (ix flux) (ix S.δ) (fun _ => 0) x = fun f => ix flux f * st.sol.impFace S.m (ix flux) x f := by
      funext f
      refine (outFlux_eq st.sol S.m flux S.δ [] x f).trans ?_
      simp [ix]
    rw [e4, e6]
    field_simp
    ring
  | impLaplacian gamma of =>
    cases hs
    simp only [Call.dv, Call.dr, Call.ev, Call.value, argCells, Option.getD_none]
    have e5 : implicitResidual S.m (lapDelta S.m (ix S.δ) (ix gamma) (ix st.sol.bVF) fun _ => 1)
        (lapRhs S.m (ix S.δ) (ix gamma) (ix st.sol.bVF) (ix st.sol.bRefValue) (ix st.sol.bRefGrad) fun _ => 1) x c
        = S.m.netOutflow (fun f => ix gamma f * ix S.m.magFaceAreas f * st.sol.impGrad S.m (ix S.δ) x f) c := by
      have := lapResidual S.m st.sol S.δ gamma (fun _ => 1) x c
      rw [one_mul] at this
      exact this
    have e6 : st.sol.outFlux S.m (fun _ => 0) (ix S.δ) (ix gamma) x = fun f => (-1 : K) • (ix gamma f * ix S.m.magFaceAreas f * st.sol.impGrad S.m (ix S.δ) x f) := by
      funext f
      refine (outFlux_eq st.sol S.m [] S.δ gamma x f).trans ?_
      simp [ix]
    rw [e5, e6, netOutflow_smul]
    simp only [smul_eq_mul]
    field_simp
    ring

/-! ### Expressions -/

/-- The heap entry of a term. -/
theorem callOps_get (S : Setting K) {calls : List (Call K)} {h : Nat} {a : Call K} (ha : calls[h]? = some a) (st : TimeState K K) :
    (callOps S calls st)[h]? = some (a.op S st) := by
  simp [callOps, ha]

theorem Over.lt {tr : ExT K} {calls : List (Call K)} (h : tr.Over calls) (S : Setting K) (st : TimeState K K) : ∀ k, ∀ i ∈ tr.leaves k, i < (callOps S calls st).length := by
  intro k i hi
  obtain ⟨a, ha, -⟩ := h k i hi
  have := (List.getElem?_eq_some_iff.1 ha).1
  simpa [callOps] using this

/-- Something a call has, for the `h`-th call. -/
def nthCall {W : Type} (calls : List (Call K)) (f : Call K → W) (d : W) (h : Nat) : W :=
  match calls[h]? with
  | some a => f a
  | none => d

theorem nthCall_eq {W : Type} {calls : List (Call K)} {f : Call K → W} {d : W} {h : Nat} {a : Call K} (ha : calls[h]? = some a) : nthCall calls f d h = f a := by
  simp [nthCall, ha]

/-- What the `h`-th call adds to the equation of a cell. -/
def callResidual (S : Setting K) (calls : List (Call K)) (dt : K) (st : TimeState K K) (x : Nat → K) (h c : Nat) : K :=
  nthCall calls (fun a => implicitResidual S.m (a.dv S dt st) (a.dr S dt st) x c + S.m.vol c * a.ev S st c) 0 h

theorem residual_written (S : Setting K) (calls : List (Call K)) (tr : ExT K) (hov : tr.Over calls) (k : OpSort) (dt : K) (st : TimeState K K) (x : Nat → K) (c : Nat) :
    implicitResidual S.m (tr.value k (Slot.row S.m) (nthCall calls (·.dv S dt st) fun _ => 0)) (tr.value k id (nthCall calls (·.dr S dt st) fun _ => 0)) x c
      + S.m.vol c * tr.value k id (nthCall calls (·.ev S st) fun _ => 0) c
      = tr.value k id (callResidual S calls dt st x) c := by
  rw [ExT.value_residual, ← smul_eq_mul (S.m.vol c), ← ExT.value_lin]
  refine ExT.value_congr k id _ _ c tr fun h hh => ?_
  obtain ⟨a, ha, -⟩ := hov k h hh
  simp only [callResidual, nthCall_eq ha, smul_eq_mul]

theorem value_written {S : Setting K} {calls : List (Call K)} {tr : ExT K} (hov : tr.Over calls) (hos : ∀ a ∈ calls, a.OfSolution) (k : OpSort) (dt : K)
    (st : TimeState K K) (x : Nat → K) (c : Nat) (hv : S.m.vol c ≠ 0) :
    tr.value k id (callResidual S calls dt st x) c = S.m.vol c * tr.value k id (termValue S calls dt st x) c := by
  have e0 : ∀ h ∈ tr.leaves k, (fun h c' => (0 : K) + S.m.vol c • termValue S calls dt st x h c') h c = callResidual S calls dt st x h c := by
    intro h hh
    obtain ⟨a, ha, -⟩ := hov k h hh
    simp only [callResidual, nthCall_eq ha, termValue, ha, smul_eq_mul, zero_add]
    exact (Call.residual dt st x c hv a (hos a (List.mem_of_getElem? ha))).symm
  rw [← ExT.value_congr k id (fun h c' => (0 : K) + S.m.vol c • termValue S calls dt st x h c') (callResidual S calls dt st x) c tr e0]
  have e1 := ExT.value_lin k id (fun _ _ => (0 : K)) (termValue S calls dt st x) (S.m.vol c) c tr
  have e2 := ExT.value_lin k id (fun _ _ => (0 : K)) (fun _ _ => (0 : K)) (1 : K) c tr
  have e3 : tr.value k id (fun _ _ => (0 : K)) c = 0 := by
    have := ExT.value_congr k id (fun h i => (0 : K) + (1 : K) • (0 : K)) (fun _ _ => (0 : K)) c tr (by simp)
    rw [this, one_smul] at e2
    exact left_eq_add.1 e2
  rw [e1, e3, zero_add, smul_eq_mul]

/-- The steady system. -/
theorem written_steady {S : Setting K} (hS : S.OK) {calls : List (Call K)} {tr : ExT K} (hov : tr.Over calls) (hfit : ∀ a ∈ calls, a.Fits S.m)
    (hT : tr.leaves .temporal = []) (hSp : tr.leaves .spatial ≠ []) (st : TimeState K K) (ho : st.sol.On S.m) (hol : st.oldTime.length = S.m.nCells)
    (hf : tr.FieldsOK (callOps S calls st) S.m.nCells) {eqn : Expr} {ops : OpsOf K K} (hb : tr.build (callOps S calls st) = .ok (eqn, ops st))
    (bcs : List (VolumeBoundary K)) (table : SolverTable K) (fvSchemes fvSolution : Dict) (t dt : K) :
    ∃ ls : LinearSystem K, ls.On S.sp S.m ∧ (∀ x, ∀ c < S.m.nCells, ls.residual x c = tr.value .spatial id (callResidual S calls dt st x) c) ∧
      ∀ solver, createSolver table fvSolution = .ok solver → ∀ out, dslSolve S.e S.m bcs table fvSchemes fvSolution ops eqn st t dt out ↔
        (solver ls st.sol.internal >>= fun x => pure { st with sol := { st.sol with internal := x } } : NR (TimeState K K)) out := by
  obtain ⟨hl1, hl2⟩ := ExT.build_length (Over.lt hov S st) hf hb
  have hT' : eqn.temporal = [] := List.length_eq_zero_iff.1 (by rw [hl1, hT]; rfl)
  have hS' : eqn.spatial ≠ [] := fun h0 => hSp (List.length_eq_zero_iff.1 (by rw [← hl2, h0]; rfl))
  obtain ⟨ls, h1, h2, h3⟩ := C32_system S.e hS.wf hS.patt hS.again (callOps S calls st) tr (Over.lt hov S st) hf eqn (ops st) hb hT' hS'
    (nthCall calls (·.dv S dt st) fun _ => 0) (nthCall calls (·.dr S dt st) fun _ => 0) (nthCall calls (·.ev S st) fun _ => 0)
    (by
      intro h hh
      obtain ⟨a, ha, hsort⟩ := hov _ h hh
      refine ⟨_, callOps_get S ha st, ?_⟩
      rw [nthCall_eq ha, nthCall_eq ha]
      have := Call.impl hS ho hol 0 0 a (hfit a (List.mem_of_getElem? ha))
      cases a <;> first | exact this | cases hsort)
    (by
      intro h hh
      obtain ⟨a, ha, -⟩ := hov _ h hh
      exact ⟨_, callOps_get S ha st, by rw [nthCall_eq ha]; exact Call.expl hS ho 0 0 a (hfit a (List.mem_of_getElem? ha))⟩)
    bcs table fvSchemes fvSolution ops st rfl t dt
  exact ⟨ls, h1, fun x c hc => by rw [h2 x c hc, residual_written S calls tr hov], h3⟩

/-- The system of a backwardEuler step. -/
theorem written_backward {S : Setting K} (hS : S.OK) {calls : List (Call K)} {tr : ExT K} (hov : tr.Over calls) (hfit : ∀ a ∈ calls, a.Fits S.m)
    (hT : tr.leaves .temporal ≠ []) (st : TimeState K K) (ho : st.sol.On S.m) (hol : st.oldTime.length = S.m.nCells)
    (hf : tr.FieldsOK (callOps S calls st) S.m.nCells) {eqn : Expr} {ops : OpsOf K K} (hb : ∀ st, tr.build (callOps S calls st) = .ok (eqn, ops st)) (t dt : K) :
    ∃ ls : LinearSystem K, ls.On S.sp S.m ∧ (∀ x, ∀ c < S.m.nCells, ls.residual x c = tr.value .temporal id (callResidual S calls dt st x) c
        + tr.value .spatial id (callResidual S calls dt st x) c - S.m.vol c * tr.value .spatial id (nthCall calls (·.ev S st) fun _ => 0) c) ∧
      ∀ (bcs : List (VolumeBoundary K)) (table : SolverTable K) (fvSchemes fvSolution : Dict), AsksFor fvSchemes "backwardEuler" →
        ∀ solver, createSolver table fvSchemes = .ok solver → ∀ out, dslSolve S.e S.m bcs table fvSchemes fvSolution ops eqn st t dt out ↔
          (solver ls st.sol.internal >>= fun x => pure ⟨{ st.sol with internal := x }, some x⟩ : NR (TimeState K K)) out := by
  obtain ⟨hl1, hl2⟩ := ExT.build_length (Over.lt hov S st) hf (hb st)
  have hT' : eqn.temporal ≠ [] := fun h0 => hT (List.length_eq_zero_iff.1 (by rw [← hl1, h0]; rfl))
  have hst : callOps S calls ⟨st.sol, some st.oldTime⟩ = callOps S calls st := by
    unfold callOps
    refine List.map_congr_left fun a _ => ?_
    cases a <;> rfl
  obtain ⟨ls, h1, h2, h3⟩ := C33_system S.e hS.wf hS.patt hS.again (callOps S calls) tr st ho.int
    (fun k h hh => ⟨Over.lt hov S st k h hh, Over.lt hov S _ k h hh⟩) hf (by rw [hst]; exact hf) eqn ops hb hT' t dt
    (nthCall calls (·.dv S dt st) fun _ => 0) (nthCall calls (·.dv S dt st) fun _ => 0) (nthCall calls (·.dr S dt st) fun _ => 0)
    (nthCall calls (·.dr S dt st) fun _ => 0) (nthCall calls (·.ev S st) fun _ => 0)
    (by
      intro h hh
      obtain ⟨a, ha, hsort⟩ := hov _ h hh
      refine ⟨_, hst ▸ callOps_get S ha st, ?_⟩
      rw [nthCall_eq ha, nthCall_eq ha]
      have := Call.impl hS ho hol 0 0 a (hfit a (List.mem_of_getElem? ha))
      cases a <;> first | exact this | cases hsort)
    (by
      intro h hh
      obtain ⟨a, ha, hsort⟩ := hov _ h hh
      refine ⟨_, hst ▸ callOps_get S ha st, ?_⟩
      rw [nthCall_eq ha, nthCall_eq ha]
      exact Call.impl hS ho hol t dt a (hfit a (List.mem_of_getElem? ha)))
    (by
      intro h hh
      obtain ⟨a, ha, -⟩ := hov _ h hh
      exact ⟨_, callOps_get S ha st, by rw [nthCall_eq ha]; exact Call.expl hS ho 0 0 a (hfit a (List.mem_of_getElem? ha))⟩)
  refine ⟨ls, h1, fun x c hc => ?_, h3⟩
  have e1 := residual_written S calls tr hov .spatial dt st x c
  have e2 := residual_written S calls tr hov .temporal dt st x c
  have e3 : tr.value .temporal id (nthCall calls (·.ev S st) fun _ => 0) c = 0 := by
    have h0 := ExT.value_congr .temporal id (nthCall calls (·.ev S st) fun _ => 0) (fun _ _ => (0 : K) + (1 : K) • (0 : K)) c tr (by
      intro h hh
      obtain ⟨a, ha, hsort⟩ := hov _ h hh
      rw [nthCall_eq ha]
      cases a <;> first | (simp [Call.ev]; done) | cases hsort)
    have h1 := ExT.value_congr .temporal id (nthCall calls (·.ev S st) fun _ => 0) (fun _ _ => (0 : K)) c tr (by
      intro h hh
      obtain ⟨a, ha, hsort⟩ := hov _ h hh
      rw [nthCall_eq ha]
      cases a <;> first | rfl | cases hsort)
    rw [ExT.value_lin, one_smul] at h0
    rw [h1] at h0 ⊢
    exact left_eq_add.1 h0
  rw [e3, mul_zero, add_zero] at e2
  rw [h2 x c hc, ← e1, e2]
  ring

/-- A forwardEuler step. -/
theorem written_forward {S : Setting K} (hS : S.OK) {calls : List (Call K)} {tr : ExT K} (hov : tr.Over calls) (hfit : ∀ a ∈ calls, a.Fits S.m)
    (hT : tr.leaves .temporal ≠ []) (st : TimeState K K) (ho : st.sol.On S.m) (hsy : st.Synced)
    (hf : ∀ st, tr.FieldsOK (callOps S calls st) S.m.nCells) {eqn : Expr} {ops : OpsOf K K} (hb : ∀ st, tr.build (callOps S calls st) = .ok (eqn, ops st))
    (bcs : List (VolumeBoundary K)) (hbc : ∀ c ∈ bcs, c.patch.end_ ≤ S.m.nBoundaryFaces) (t dt : K) :
    ∃ φ', EulerStep S.m bcs (fun φ => tr.value .spatial id (nthCall calls (·.ev S ⟨φ, none⟩) fun _ => 0)) dt st.sol φ' ∧
      ∀ (table : SolverTable K) (fvSchemes fvSolution : Dict), AsksFor fvSchemes "forwardEuler" →
        ∀ out, dslSolve S.e S.m bcs table fvSchemes fvSolution ops eqn st t dt out ↔ out = .ok ⟨φ', some φ'.internal⟩ := by
  obtain ⟨hl1, hl2⟩ := ExT.build_length (Over.lt hov S st) (hf st) (hb st)
  have hT' : eqn.temporal ≠ [] := fun h0 => hT (List.length_eq_zero_iff.1 (by rw [← hl1, h0]; rfl))
  obtain ⟨φ', h1, h2⟩ := forwardEuler_det S.e hS.wf bcs hbc ops eqn (fun φ => tr.value .spatial id (nthCall calls (·.ev S ⟨φ, none⟩) fun _ => 0))
    (fun st hon => (C31_explicit_partial (callOps S calls st) tr S.m.nCells (Over.lt hov S st) (hf st) eqn _ (hb st)).1
      (nthCall calls (·.ev S ⟨st.sol, none⟩) fun _ => 0) (by
        intro h hh
        obtain ⟨a, ha, -⟩ := hov _ h hh
        refine ⟨_, callOps_get S ha st, ?_⟩
        rw [nthCall_eq ha]
        have := Call.expl hS hon 0 0 a (hfit a (List.mem_of_getElem? ha))
        cases a <;> exact this)) dt st.sol ho
  refine ⟨φ', h1, fun table fvSchemes fvSolution hd out => ?_⟩
  rw [C34_solve S.e S.m bcs table fvSolution hd ops hT']
  exact h2 st rfl hsy out

/-- **C76, steady equations**: for every list of calls of `exp::div`, `exp::source`, `imp::source`, `imp::div` and `imp::laplacian`, in any composition with
sums, differences and multiples (implicit terms of the field solved for): whenever `solve` returns, the equation as written holds in every cell, the implicit terms
at the new values and the explicit terms at the old ones; the boundary data and the old-time field are kept. -/
theorem C76_steady {S : Setting K} (hS : S.OK) (hv : ∀ c < S.m.nCells, S.m.vol c ≠ 0) (calls : List (Call K)) (tr : ExT K) (hov : tr.Over calls)
    (hfit : ∀ a ∈ calls, a.Fits S.m) (hos : ∀ a ∈ calls, a.OfSolution)
    (hT : tr.leaves .temporal = []) (hSp : tr.leaves .spatial ≠ []) (st : TimeState K K) (ho : st.sol.On S.m) (hol : st.oldTime.length = S.m.nCells)
    (hf : tr.FieldsOK (callOps S calls st) S.m.nCells) (eqn : Expr) (ops : OpsOf K K) (hb : tr.build (callOps S calls st) = .ok (eqn, ops st))
    (bcs : List (VolumeBoundary K)) (table : SolverTable K) (fvSchemes fvSolution : Dict) (t dt : K) (solver : LinSolver K)
    (hs : createSolver table fvSolution = .ok solver) (hex : ExactOn S.m solver) (st' : TimeState K K)
    (hrun : dslSolve S.e S.m bcs table fvSchemes fvSolution ops eqn st t dt (.ok st')) :
    EquationHolds S calls tr dt st st'.sol.cell ∧ st'.sol.On S.m ∧ (∀ b, st'.sol.entry b = st.sol.entry b) ∧ st'.old = st.old := by
  obtain ⟨ls, h1, h2, h3⟩ := written_steady hS hov hfit hT hSp st ho hol hf hb bcs table fvSchemes fvSolution t dt
  obtain ⟨r, h4, h5⟩ := (h3 solver hs _).1 hrun
  cases r with
  | ok x =>
    cases h5
    obtain ⟨a, b⟩ := hex _ _ _ ⟨S.sp, hS.patt, h1⟩ ho.int h4
    refine ⟨fun c hc => ?_, ⟨a, ho.2, ho.3, ho.4, ho.5⟩, fun _ => rfl, rfl⟩
    have := b c hc
    rw [h2 _ c hc, value_written hov hos _ _ _ _ _ (hv c hc), mul_eq_zero] at this
    rw [ExT.value_none .temporal _ _ _ _ hT, zero_add]
    exact this.resolve_left (hv c hc)
  | throw _ => cases h5
  | abort => cases h5
  | ub => cases h5

/-- **C76, backwardEuler, all terms written with `imp::`**: whenever the step returns, the equation as written holds in every cell at the new values. Missing: terms
written with `exp::` (`C76_backward_violation`). -/
theorem C76_backward_partial {S : Setting K} (hS : S.OK) (hv : ∀ c < S.m.nCells, S.m.vol c ≠ 0) (calls : List (Call K)) (tr : ExT K) (hov : tr.Over calls)
    (hfit : ∀ a ∈ calls, a.Fits S.m) (hos : ∀ a ∈ calls, a.OfSolution) (himp : ∀ a ∈ calls, ¬ a.IsExp)
    (hT : tr.leaves .temporal ≠ []) (st : TimeState K K) (ho : st.sol.On S.m) (hol : st.oldTime.length = S.m.nCells)
    (hf : tr.FieldsOK (callOps S calls st) S.m.nCells) (eqn : Expr) (ops : OpsOf K K) (hb : ∀ st, tr.build (callOps S calls st) = .ok (eqn, ops st))
    (bcs : List (VolumeBoundary K)) (table : SolverTable K) (fvSchemes fvSolution : Dict) (hd : AsksFor fvSchemes "backwardEuler") (t dt : K)
    (solver : LinSolver K) (hs : createSolver table fvSchemes = .ok solver) (hex : ExactOn S.m solver) (st' : TimeState K K)
    (hrun : dslSolve S.e S.m bcs table fvSchemes fvSolution ops eqn st t dt (.ok st')) :
    EquationHolds S calls tr dt st st'.sol.cell ∧ st'.sol.On S.m ∧ (∀ b, st'.sol.entry b = st.sol.entry b) ∧ st'.old = some st'.sol.internal := by
  obtain ⟨ls, h1, h2, h3⟩ := written_backward hS hov hfit hT st ho hol hf hb t dt
  obtain ⟨r, h4, h5⟩ := (h3 bcs table fvSchemes fvSolution hd solver hs _).1 hrun
  cases r with
  | ok x =>
    cases h5
    obtain ⟨a, b⟩ := hex _ _ _ ⟨S.sp, hS.patt, h1⟩ ho.int h4
    refine ⟨fun c hc => ?_, ⟨a, ho.2, ho.3, ho.4, ho.5⟩, fun _ => rfl, rfl⟩
    have := b c hc
    have e0 : ∀ h ∈ tr.leaves .spatial, nthCall calls (·.ev S st) (fun _ => 0) h c = callResidual S calls dt st (fun _ => 0) h c - callResidual S calls dt st (fun _ => 0) h c := by
      intro h hh
      obtain ⟨a, ha, hsort⟩ := hov _ h hh
      have := himp a (List.mem_of_getElem? ha)
      rw [nthCall_eq ha, sub_self]
      cases a <;> first | exact absurd trivial this | rfl
    have e1 : tr.value .spatial id (nthCall calls (·.ev S st) fun _ => 0) c = 0 := by
      have h6 := ExT.value_congr .spatial id (nthCall calls (·.ev S st) fun _ => 0) (fun h i => callResidual S calls dt st (fun _ => 0) h i + (-1 : K) • callResidual S calls dt st (fun _ => 0) h i) c tr
        (fun h hh => (e0 h hh).trans (by simp))
      rw [h6, ExT.value_lin]
      simp
    rw [h2 _ c hc, e1, value_written hov hos _ _ _ _ _ (hv c hc), value_written hov hos _ _ _ _ _ (hv c hc), mul_zero, sub_zero, ← mul_add, mul_eq_zero] at this
    exact this.resolve_left (hv c hc)
  | throw _ => cases h5
  | abort => cases h5
  | ub => cases h5

/-- **C76, forwardEuler, spatial terms written with `exp::` and time derivatives with total coefficient one**: the step has one outcome, and it satisfies the equation
as written in every cell, the spatial terms at the old values. Missing: terms written with `imp::` (`C76_forward_violation`) and other coefficients (`C34_violation`). -/
theorem C76_forward_partial {S : Setting K} (hS : S.OK) (calls : List (Call K)) (tr : ExT K) (hov : tr.Over calls)
    (hfit : ∀ a ∈ calls, a.Fits S.m) (hexp : ∀ h ∈ tr.leaves .spatial, ∀ a, calls[h]? = some a → a.IsExp)
    (hT : tr.leaves .temporal ≠ []) (hone : ∀ (v : Nat → K), ∀ c < S.m.nCells, tr.value .temporal id (fun _ => v) c = v c)
    (st : TimeState K K) (ho : st.sol.On S.m) (hsy : st.Synced)
    (hf : ∀ st, tr.FieldsOK (callOps S calls st) S.m.nCells) (eqn : Expr) (ops : OpsOf K K) (hb : ∀ st, tr.build (callOps S calls st) = .ok (eqn, ops st))
    (bcs : List (VolumeBoundary K)) (hbc : ∀ c ∈ bcs, c.patch.end_ ≤ S.m.nBoundaryFaces)
    (table : SolverTable K) (fvSchemes fvSolution : Dict) (hd : AsksFor fvSchemes "forwardEuler") (t dt : K) (hdt : dt ≠ 0) :
    ∃ st' : TimeState K K, (∀ out, dslSolve S.e S.m bcs table fvSchemes fvSolution ops eqn st t dt out ↔ out = .ok st') ∧
      EquationHolds S calls tr dt st st'.sol.cell ∧ st'.sol.On S.m ∧ st'.old = some st'.sol.internal := by
  obtain ⟨φ', h1, h2⟩ := written_forward hS hov hfit hT st ho hsy hf hb bcs hbc t dt
  refine ⟨⟨φ', some φ'.internal⟩, h2 table fvSchemes fvSolution hd, fun c hc => ?_, h1.on, rfl⟩
  have e1 : tr.value .temporal id (termValue S calls dt st φ'.cell) c = (φ'.cell c - ix st.oldTime c) / dt := by
    rw [← hone (fun c => (φ'.cell c - ix st.oldTime c) / dt) c hc]
    refine ExT.value_congr .temporal id _ _ c tr fun h hh => ?_
    obtain ⟨a, ha, hsort⟩ := hov _ h hh
    simp only [termValue, ha]
    cases a <;> first | rfl | cases hsort
  have e2 : tr.value .spatial id (termValue S calls dt st φ'.cell) c = tr.value .spatial id (nthCall calls (·.ev S ⟨st.sol, none⟩) fun _ => 0) c := by
    refine ExT.value_congr .spatial id _ _ c tr fun h hh => ?_
    obtain ⟨a, ha, hsort⟩ := hov _ h hh
    have := hexp h hh a ha
    simp only [termValue, ha, nthCall_eq ha]
    cases a <;> first | exact this.elim | (simp only [Call.value, Call.ev]; ring)
  have e3 : ix st.oldTime c = st.sol.cell c := by rw [hsy]; rfl
  show tr.value .temporal id (termValue S calls dt st φ'.cell) c + tr.value .spatial id (termValue S calls dt st φ'.cell) c = 0
  rw [e1, e2, e3, h1.cells c hc, smul_eq_mul]
  field_simp
  ring

/-! ### Where the equation as written is not what is solved -/

/-- One cell, serial executor. -/
def cellSetting : Setting ℚ := ⟨.serial, cell0, cell1Pattern, .upwind, [], [], fun _ => 0⟩

theorem cellSetting_ok : cellSetting.OK := ⟨cell0_wf, by
    intro c hc
    have hc : c < 1 := hc
    interval_cases c; decide, cell0_run, rfl, rfl, Or.inl rfl⟩

theorem cell0State_on : cell0State.sol.On cellSetting.m := ⟨rfl, rfl, rfl, rfl, rfl⟩

/-- `a + b` of a temporal and a spatial term. -/
def ddtPlus : ExT ℚ := .addOO (.var .temporal 0) (.var .spatial 1)

theorem ddtPlus_over (a : Call ℚ) (ha : a.sort = .spatial) : ddtPlus.Over [.impDdt, a] := by
  intro k h hh
  cases k <;> simp [ddtPlus, ExT.leaves, OpT.sort, OpT.leaf] at hh <;> subst hh
  · exact ⟨_, rfl, rfl⟩
  · exact ⟨_, rfl, ha⟩

theorem ddtPlus_build (a : Call ℚ) : ∃ (eqn : Expr) (ops : OpsOf ℚ ℚ), ∀ st, ddtPlus.build (callOps cellSetting [.impDdt, a] st) = .ok (eqn, ops st) := by
  have key : ∀ st, ∃ o, ddtPlus.build (callOps cellSetting [.impDdt, a] st) = .ok (⟨[4], [5]⟩, o) := fun st => ⟨_, rfl⟩
  exact ⟨_, fun st => (key st).choose, fun st => (key st).choose_spec⟩

/-- **C76 fails for `imp::` terms with forwardEuler**: a step of `imp::ddt(u) + imp::source(1, u)` from `u = 1` with `dt = 1` leaves `u = 1`: the source is ignored, without
any error. -/
theorem C76_forward_violation (eqn : Expr) (ops : OpsOf ℚ ℚ)
    (hb : ∀ st, ddtPlus.build (callOps cellSetting [.impDdt, .impSource [1] none] st) = .ok (eqn, ops st)) :
    ∃ st', (∀ out, dslSolve .serial cell0 [] [] forwardDict [] ops eqn cell0State 0 1 out ↔ out = .ok st') ∧ st'.sol.cell 0 = 1 ∧
      ¬ EquationHolds cellSetting [.impDdt, .impSource [1] none] ddtPlus 1 cell0State st'.sol.cell := by
  obtain ⟨φ', h1, h2⟩ := written_forward cellSetting_ok (ddtPlus_over _ rfl) (by
      intro a ha
      simp only [List.mem_cons, List.not_mem_nil, or_false] at ha
      rcases ha with rfl | rfl
      · trivial
      · exact ⟨rfl, by simp⟩) (by simp [ddtPlus, ExT.leaves, OpT.sort]) cell0State cell0State_on rfl (fun _ => ⟨trivial, trivial⟩) hb [] (by simp) 0 1
  have hc := h1.cells 0 (by decide)
  have hc1 : φ'.cell 0 = 1 := by
    rw [hc]
    simp [ddtPlus, ExT.value, OpT.valueOf, OpT.sort, OpT.value, nthCall, Call.ev, cell0State, VolField.cell]
  refine ⟨_, h2 [] forwardDict [] ⟨_, rfl, rfl⟩, hc1, fun he => ?_⟩
  have := he 0 (by decide)
  simp [ddtPlus, ExT.value, OpT.valueOf, OpT.sort, OpT.value, termValue, Call.value, argCells, hc1, cell0State, TimeState.oldTime, ix] at this

/-- **C76 fails for `exp::` terms with backwardEuler**: a step of `imp::ddt(u) + exp::source(1, u)` from `u = 1` with `dt = 1` and any exact linear solver leaves `u = 1`. -/
theorem C76_backward_violation (eqn : Expr) (ops : OpsOf ℚ ℚ)
    (hb : ∀ st, ddtPlus.build (callOps cellSetting [.impDdt, .expSource [1] none] st) = .ok (eqn, ops st)) :
    (∃ st', dslSolve .serial cell0 [] [("exact", fun _ => anySolution)] backwardDict [] ops eqn cell0State 0 1 (.ok st')) ∧
    ∀ solver : LinSolver ℚ, ExactOn cell0 solver → ∀ st',
      dslSolve .serial cell0 [] [("exact", fun _ => solver)] backwardDict [] ops eqn cell0State 0 1 (.ok st') →
      st'.sol.cell 0 = 1 ∧ ¬ EquationHolds cellSetting [.impDdt, .expSource [1] none] ddtPlus 1 cell0State st'.sol.cell := by
  obtain ⟨ls, h1, h2, h3⟩ := written_backward cellSetting_ok (ddtPlus_over _ rfl) (by
      intro a ha
      simp only [List.mem_cons, List.not_mem_nil, or_false] at ha
      rcases ha with rfl | rfl
      · trivial
      · exact ⟨rfl, by simp⟩) (by simp [ddtPlus, ExT.leaves, OpT.sort]) cell0State cell0State_on rfl ⟨trivial, trivial⟩ hb 0 1
  have hres : ∀ x, ls.residual x 0 = x 0 - 1 := by
    intro x
    rw [h2 x 0 (by decide)]
    simp [ddtPlus, ExT.value, OpT.valueOf, OpT.sort, OpT.value, callResidual, nthCall, Call.dv, Call.dr, Call.ev, implicitResidual, diagDelta, cellSetting, cell0, topoMesh, Mesh.vol, ix,
      cell0State, TimeState.oldTime, VolField.cell]
  constructor
  · refine ⟨_, (h3 [] _ _ [] ⟨_, rfl, rfl⟩ anySolution rfl _).2 ⟨.ok [1], ⟨_, rfl, h1.rhsLen.symm, fun i hi => ?_⟩, rfl⟩⟩
    rw [h1.rhsLen] at hi
    have hi : i < 1 := hi
    interval_cases i
    rw [hres]; simp [ix]
  · intro solver hex st' hrun
    obtain ⟨r, h4, h5⟩ := (h3 [] [("exact", fun _ => solver)] _ [] ⟨_, rfl, rfl⟩ solver rfl _).1 hrun
    cases r with
    | ok x =>
      cases h5
      have := (hex _ _ _ ⟨_, cellSetting_ok.patt, h1⟩ rfl h4).2 0 (by decide)
      rw [hres, sub_eq_zero] at this
      refine ⟨this, fun he => ?_⟩
      have h6 := he 0 (by decide)
      have h7 : VolField.cell { cell0State.sol with internal := x } 0 = 1 := this
      simp [ddtPlus, ExT.value, OpT.valueOf, OpT.sort, OpT.value, termValue, Call.value, h7, cell0State, TimeState.oldTime, ix, VolField.cell] at h6
      simp [VolField.cell] at h7
      norm_num [h7] at h6
    | throw e => cases h5
    | abort => cases h5
    | ub => cases h5

/-- A field with the value 4 in the cell. -/
def fourField : VolField ℚ ℚ := ⟨[4], [], [], [], []⟩

/-- `2 u - v` with implicit sources, `v` another field. -/
def twoFields : List (Call ℚ) := [.impSource [2] none, .impSource [1] (some fourField)]

/-- `a - b` of two spatial terms. -/
def minusTree : ExT ℚ := .subOO (.var .spatial 0) (.var .spatial 1)

/-- **C76 fails for implicit terms of another field**: `imp::source(2, u) - imp::source(1, v)` with `v = 4` asks for `u = 2`. `solve` accepts it and returns `u = 0`: the term of
`v` is assembled as one of `u`. -/
theorem C76_other_field_violation (eqn : Expr) (ops : OpsOf ℚ ℚ) (hb : minusTree.build (callOps cellSetting twoFields cell0State) = .ok (eqn, ops cell0State)) :
    (∃ st', dslSolve .serial cell0 [] [("exact", fun _ => anySolution)] [] backwardDict ops eqn cell0State 0 1 (.ok st')) ∧
    ∀ solver : LinSolver ℚ, ExactOn cell0 solver → ∀ st',
      dslSolve .serial cell0 [] [("exact", fun _ => solver)] [] backwardDict ops eqn cell0State 0 1 (.ok st') →
      st'.sol.cell 0 = 0 ∧ ¬ EquationHolds cellSetting twoFields minusTree 1 cell0State st'.sol.cell := by
  have hw := fun table => written_steady cellSetting_ok (calls := twoFields) (tr := minusTree) (by
      intro k h hh
      cases k <;> simp [minusTree, ExT.leaves, OpT.sort, OpT.leaf] at hh
      rcases hh with rfl | rfl <;> exact ⟨_, rfl, rfl⟩) (by
      intro a ha
      simp only [twoFields, List.mem_cons, List.not_mem_nil, or_false] at ha
      rcases ha with rfl | rfl
      · exact ⟨rfl, by simp⟩
      · refine ⟨rfl, ?_⟩
        intro ψ hψ
        cases hψ
        exact ⟨rfl, rfl, rfl, rfl, rfl⟩) (by simp [minusTree, ExT.leaves, OpT.sort]) (by simp [minusTree, ExT.leaves, OpT.sort]) cell0State cell0State_on rfl ⟨trivial, trivial⟩ hb
      [] table [] backwardDict 0 1
  have hres : ∀ (ls : LinearSystem ℚ), (∀ x, ∀ c < cellSetting.m.nCells, ls.residual x c = minusTree.value .spatial id (callResidual cellSetting twoFields 1 cell0State x) c) →
      ∀ x, ls.residual x 0 = x 0 := by
    intro ls h2 x
    rw [h2 x 0 (by decide)]
    simp [minusTree, ExT.value, OpT.valueOf, OpT.sort, OpT.value, callResidual, nthCall, twoFields, Call.dv, Call.dr, Call.ev, implicitResidual, diagDelta, cellSetting, cell0, topoMesh,
      Mesh.vol, ix]
    ring
  constructor
  · obtain ⟨ls, h1, h2, h3⟩ := hw [("exact", fun _ => anySolution)]
    refine ⟨_, (h3 anySolution rfl _).2 ⟨.ok [0], ⟨_, rfl, h1.rhsLen.symm, fun i hi => ?_⟩, rfl⟩⟩
    rw [h1.rhsLen] at hi
    have hi : i < 1 := hi
    interval_cases i
    rw [hres ls h2]; rfl
  · intro solver hex st' hrun
    obtain ⟨ls, h1, h2, h3⟩ := hw [("exact", fun _ => solver)]
    obtain ⟨r, h4, h5⟩ := (h3 solver rfl _).1 hrun
    cases r with
    | ok x =>
      cases h5
      have := (hex _ _ _ ⟨_, cellSetting_ok.patt, h1⟩ rfl h4).2 0 (by decide)
      rw [hres ls h2] at this
      refine ⟨this, fun he => ?_⟩
      have h6 := he 0 (by decide)
      have h7 : VolField.cell { cell0State.sol with internal := x } 0 = 0 := this
      simp [minusTree, ExT.value, OpT.valueOf, OpT.sort, OpT.value, termValue, twoFields, Call.value, argCells, h7, cell0State, ix, VolField.cell, fourField] at h6
      simp [VolField.cell] at h7
      norm_num [h7] at h6
    | throw e => cases h5
    | abort => cases h5
    | ub => cases h5

/-! ### The hypotheses are met -/

/-- `exp::source(k, u) - imp::laplacian(1, u)` in a row of three cells between the values 7 and 9: the sources 1, 0, -1/2 per old value 1, 5, 2 give the solution 7, 8, 9. -/
example : ∃ (S : Setting ℚ) (eqn : Expr) (ops : OpsOf ℚ ℚ), S.OK ∧ S.m = row3 ∧
    (ExT.subOO (.var .spatial 0) (.var .spatial 1)).build (callOps S [.expSource [1, 0, -1 / 2] none, .impLaplacian [1, 1, 1, 1] none] ⟨row3Field, none⟩) = .ok (eqn, ops ⟨row3Field, none⟩) ∧
    dslSolve .serial row3 [] [("exact", fun _ => anySolution)] [] [("solver", .str "exact")] ops eqn ⟨row3Field, none⟩ 0 1
      (.ok ⟨{ row3Field with internal := [7, 8, 9] }, none⟩) := by
  obtain ⟨sp, hsp⟩ := C14_terminates row3 row3_wf .serial
  let S : Setting ℚ := ⟨.serial, row3, sp, .upwind, [1, 1, 1, 1], [1, 1, 1, 1], fun _ => 0⟩
  have hS : S.OK := ⟨row3_wf, row3_deg, hsp, rfl, rfl, Or.inl rfl⟩
  obtain ⟨ops, hb⟩ : ∃ ops : OpsOf ℚ ℚ, (ExT.subOO (.var .spatial 0) (.var .spatial 1)).build
      (callOps S [.expSource [1, 0, -1 / 2] none, .impLaplacian [1, 1, 1, 1] none] ⟨row3Field, none⟩) = .ok (⟨[], [4, 7]⟩, ops ⟨row3Field, none⟩) := ⟨fun _ => _, rfl⟩
  refine ⟨S, _, ops, hS, rfl, hb, ?_⟩
  have hov : (ExT.subOO (.var .spatial 0) (.var .spatial 1) : ExT ℚ).Over [.expSource [1, 0, -1 / 2] none, .impLaplacian [1, 1, 1, 1] none] := by
    intro k h hh
    cases k <;> simp [ExT.leaves, OpT.sort, OpT.leaf] at hh
    rcases hh with rfl | rfl <;> exact ⟨_, rfl, rfl⟩
  have hfit : ∀ a ∈ ([.expSource [1, 0, -1 / 2] none, .impLaplacian [1, 1, 1, 1] none] : List (Call ℚ)), a.Fits S.m := by
    intro a ha
    simp only [List.mem_cons, List.not_mem_nil, or_false] at ha
    rcases ha with rfl | rfl <;> exact ⟨rfl, by simp⟩
  obtain ⟨ls, h1, h2, h3⟩ := written_steady hS hov hfit (by simp [ExT.leaves, OpT.sort]) (by simp [ExT.leaves, OpT.sort]) ⟨row3Field, none⟩ row3Field_on rfl ⟨trivial, trivial⟩ hb
    [] [("exact", fun _ => anySolution)] [] [("solver", .str "exact")] 0 1
  refine (h3 anySolution rfl _).2 ⟨.ok [7, 8, 9], ⟨_, rfl, h1.rhsLen.symm, fun i hi => ?_⟩, rfl⟩
  rw [h1.rhsLen] at hi
  rw [h2 _ i hi, value_written hov (by
    intro a ha
    simp only [List.mem_cons, List.not_mem_nil, or_false] at ha
    rcases ha with rfl | rfl
    · trivial
    · rfl) _ _ _ _ _ (by
    have hi : i < 3 := hi
    interval_cases i <;> simp [S, Mesh.vol, row3, topoMesh])]
  have hi : i < 3 := hi
  interval_cases i <;>
  simp [ExT.value, OpT.valueOf, OpT.sort, OpT.value, termValue, Call.value, argCells, S, Mesh.netOutflow, VolField.outFlux, row3, topoMesh, sum_range_succ, Mesh.own, Mesh.nbr, Mesh.fc, ix,
    Mesh.vol, VolField.cell, row3Field, VolField.entry] <;>
  norm_num

end NeoFOAM
