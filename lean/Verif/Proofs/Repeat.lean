import Verif.Spec.Repeat
import Verif.Proofs.Sim
import Verif.Proofs.Solve

/-!
# Calls that always end in the same way
-/
namespace NeoFOAM
variable {K V W : Type}

/-- Both calls always end in the same way, with related results. -/
def NR.Det {α : Type u} {β : Type v} (R : α → β → Prop) (X : NR α) (Y : NR β) : Prop := ∃ r r', X.Is r ∧ Y.Is r' ∧ Res.Rel R r r'

namespace NR.Det
variable {α β γ δ : Type} {R : α → β → Prop}

theorem pure {a : α} {b : β} (h : R a b) : NR.Det R (Pure.pure a : NR α) (Pure.pure b : NR β) := ⟨.ok a, .ok b, fun _ => Iff.rfl, fun _ => Iff.rfl, h⟩

theorem lift {x : Res α} {y : Res β} (h : Res.Rel R x y) : NR.Det R (NR.lift x) (NR.lift y) := ⟨x, y, fun _ => Iff.rfl, fun _ => Iff.rfl, h⟩

theorem lift_eq (x : Res α) : NR.Det (· = ·) (NR.lift x) (NR.lift x) := lift (Res.Rel.eq x)

theorem of_is {X : NR α} {Y : NR α} {r : Res α} (h : X.Is r) (h' : Y.Is r) : NR.Det (· = ·) X Y := ⟨r, r, h, h', Res.Rel.eq r⟩

theorem bind {S : γ → δ → Prop} {X : NR α} {Y : NR β} {k : α → NR γ} {k' : β → NR δ} (h : NR.Det R X Y) (hk : ∀ a b, R a b → NR.Det S (k a) (k' b)) :
    NR.Det S (X >>= k) (Y >>= k') := by
  have nf : ∀ {ε ζ : Type} {Z : NR ε} {j : ε → NR ζ} {z : Res ε}, Z.Is z → ∀ out, (Z >>= j) out ↔ (NR.lift z >>= j) out := by
    intro ε ζ Z j z hz out
    rw [show Z = NR.lift z from funext fun o => propext (hz o)]
  obtain ⟨r, r', hX, hY, hr⟩ := h
  cases r <;> cases r' <;> try exact hr.elim
  case ok.ok a b =>
    obtain ⟨q, q', h1, h2, hq⟩ := hk a b hr
    exact ⟨q, q', fun out => (NR.bind_iff hX out).trans (h1 out), fun out => (NR.bind_iff hY out).trans (h2 out), hq⟩
  case throw.throw x y =>
    refine ⟨.throw x, .throw y, fun out => (nf hX out).trans ?_, fun out => (nf hY out).trans ?_, hr⟩ <;>
      exact ⟨fun ⟨_, h1, h2⟩ => by cases h1; exact h2, fun h => ⟨_, rfl, h⟩⟩
  case abort.abort =>
    refine ⟨.abort, .abort, fun out => (nf hX out).trans ?_, fun out => (nf hY out).trans ?_, trivial⟩ <;>
      exact ⟨fun ⟨_, h1, h2⟩ => by cases h1; exact h2, fun h => ⟨_, rfl, h⟩⟩
  case ub.ub =>
    refine ⟨.ub, .ub, fun out => (nf hX out).trans ?_, fun out => (nf hY out).trans ?_, trivial⟩ <;>
      exact ⟨fun ⟨_, h1, h2⟩ => by cases h1; exact h2, fun h => ⟨_, rfl, h⟩⟩

/-- The same value goes on. -/
theorem bindEq {S : γ → δ → Prop} {X Y : NR α} {k : α → NR γ} {k' : α → NR δ} (h : NR.Det (· = ·) X Y) (hk : ∀ a, NR.Det S (k a) (k' a)) :
    NR.Det S (X >>= k) (Y >>= k') := h.bind fun a _ hab => hab ▸ hk a

theorem foldlM {ι κ : Type} {P : ι → κ → Prop} {f : α → ι → NR α} {g : β → κ → NR β} (hf : ∀ a b i j, R a b → P i j → NR.Det R (f a i) (g b j)) :
    ∀ {l : List ι} {l' : List κ}, List.Forall₂ P l l' → ∀ {a : α} {b : β}, R a b → NR.Det R (l.foldlM f a) (l'.foldlM g b)
  | _, _, .nil, _, _, h => pure h
  | _, _, .cons hp hl, a, b, h => by
    rw [List.foldlM_cons, List.foldlM_cons]
    exact bind (hf _ _ _ _ h hp) fun _ _ h' => foldlM hf hl h'

theorem mono {S : α → β → Prop} {X : NR α} {Y : NR β} (h : NR.Det R X Y) (hS : ∀ a b, R a b → S a b) : NR.Det S X Y := by
  obtain ⟨r, r', h1, h2, h3⟩ := h
  exact ⟨r, r', h1, h2, h3.mono hS⟩

/-- Equal results: one outcome for both. -/
theorem is_eq {X Y : NR α} (h : NR.Det (· = ·) X Y) : ∃ r, X.Is r ∧ Y.Is r := by
  obtain ⟨r, r', h1, h2, h3⟩ := h
  have : r = r' := by
    cases r <;> cases r' <;> first | exact h3.elim | rfl | (cases h3; rfl)
  exact ⟨r, h1, this ▸ h2⟩

end NR.Det

/-! ### Kernels -/

theorem launch_serial_det {A V : Type} [DecidableEq A] (start stop : Nat) (body : Nat → Res (List (Act A V))) (arrs : A → List V) :
    NR.Det (· = ·) (launch .serial start stop body arrs) (launch .serial start stop body arrs) := by
  have : (launch .serial start stop body arrs).Single := by
    rintro _ _ ⟨r, hr, rfl⟩ ⟨r', hr', rfl⟩
    have : r = r' := by
      generalize (List.range' start (stop - start)).mapM body = z at hr hr'
      cases z with
      | ok ts =>
        obtain ⟨l, hl, hr⟩ := hr
        obtain ⟨l', hl', hr'⟩ := hr'
        obtain rfl : l = l' := Eq.trans hl (Eq.symm hl')
        generalize runActs Mem.step (⟨arrs, fun _ => none⟩ : Mem A V) l = q at hr hr'
        cases q <;> exact Eq.trans hr (Eq.symm hr')
      | throw e => exact Eq.trans hr (Eq.symm hr')
      | abort => exact Eq.trans hr (Eq.symm hr')
      | ub => exact Eq.trans hr (Eq.symm hr')
    rw [this]
  obtain ⟨o, ho⟩ := launch_runs .serial start stop body arrs
  have h : (launch .serial start stop body arrs).Is o := fun out => ⟨fun h => this _ _ h ho, fun h => h ▸ ho⟩
  exact .of_is h h

theorem launch1_serial_det {V : Type} (start stop : Nat) (body : Nat → Res (List (Act Unit V))) (a : List V) :
    NR.Det (· = ·) (launch1 .serial start stop body a) (launch1 .serial start stop body a) :=
  .bindEq (launch_serial_det _ _ _ _) fun _ => .pure rfl

/-- An element-wise kernel within its array does the same on every executor. -/
theorem elemKernel_any {α : Type} (e e' : ExecKind) (start stop : Nat) (body : Nat → Res (α → α)) (a : List α) (hs : stop ≤ a.length) :
    NR.Det (· = ·) (elemKernel e start stop body a) (elemKernel e' start stop body a) :=
  .bindEq (.lift_eq _) fun _ => .of_is (parElem_det _ _ _ _ _ hs) (parElem_det _ _ _ _ _ hs)

theorem elemKernel_serial {α : Type} (start stop : Nat) (body : Nat → Res (α → α)) (a : List α) :
    NR.Det (· = ·) (elemKernel .serial start stop body a) (elemKernel .serial start stop body a) := by
  refine .bindEq (.lift_eq _) fun fs => ?_
  have : ∃ r, NR.Is (α := List α) (ParElem .serial a start stop (fun i => fs.getD (i - start) id)) r := by
    cases hr : runActs Mem.step (⟨fun _ => a, fun _ => none⟩ : Mem Unit α)
        ((List.range' start (stop - start)).map fun i => Act.plain (A := Unit) i () i (fs.getD (i - start) id)).flatten with
    | ok s => 
      refine ⟨.ok (s.arr ()), fun out => ⟨?_, fun h => ⟨_, rfl, by rw [hr]; exact h⟩⟩⟩
      rintro ⟨l, hl, h⟩
      rw [show l = _ from hl, hr] at h
      exact h
    | throw x =>
      refine ⟨.throw x, fun out => ⟨?_, fun h => ⟨_, rfl, by rw [hr]; exact h⟩⟩⟩
      rintro ⟨l, hl, h⟩
      rw [show l = _ from hl, hr] at h
      exact h
    | abort =>
      refine ⟨.abort, fun out => ⟨?_, fun h => ⟨_, rfl, by rw [hr]; exact h⟩⟩⟩
      rintro ⟨l, hl, h⟩
      rw [show l = _ from hl, hr] at h
      exact h
    | ub =>
      refine ⟨.ub, fun out => ⟨?_, fun h => ⟨_, rfl, by rw [hr]; exact h⟩⟩⟩
      rintro ⟨l, hl, h⟩
      rw [show l = _ from hl, hr] at h
      exact h
  obtain ⟨r, hr⟩ := this
  exact .of_is hr hr

/-- The two lists hold the same at the indices in `S`. -/
def SameOn {α : Type} (S : Nat → Prop) (a b : List α) : Prop := a.length = b.length ∧ ∀ i, S i → a[i]? = b[i]?

/-- A kernel that overwrites its range, on lists that agree elsewhere. -/
theorem elemKernel_over {α : Type} (e e' : ExecKind) (start stop : Nat) {body : Nat → Res (α → α)} (hb : ∀ i f, body i = .ok f → ∀ x y, f x = f y)
    {S : Nat → Prop} {a b : List α} (hab : SameOn S a b) (hs : stop ≤ a.length) :
    NR.Det (fun x y => x.length = a.length ∧ SameOn (fun i => S i ∨ (start ≤ i ∧ i < stop)) x y) (elemKernel e start stop body a) (elemKernel e' start stop body b) := by
  have hfs : ∀ (l : List Nat) (fs : List (α → α)), l.mapM body = .ok fs → ∀ f ∈ fs, ∀ x y, f x = f y := by
    intro l
    induction l with
    | nil => intro fs h f hf; cases h; simp at hf
    | cons i l ih =>
      intro fs h f hf
      rw [List.mapM_cons] at h
      obtain ⟨g, hg, h⟩ := Res.bind_eq_ok.1 h
      obtain ⟨gs, hgs, h⟩ := Res.bind_eq_ok.1 h
      cases h
      rcases List.mem_cons.1 hf with rfl | hf
      · exact hb i _ hg
      · exact ih gs hgs f hf
  have hlen : ∀ (l : List Nat) (fs : List (α → α)), l.mapM body = .ok fs → fs.length = l.length := by
    intro l
    induction l with
    | nil => intro fs h; cases h; rfl
    | cons i l ih =>
      intro fs h
      rw [List.mapM_cons] at h
      obtain ⟨g, hg, h⟩ := Res.bind_eq_ok.1 h
      obtain ⟨gs, hgs, h⟩ := Res.bind_eq_ok.1 h
      cases h
      simp [ih gs hgs]
  unfold elemKernel
  cases hm : (List.range' start (stop - start)).mapM body with
  | throw x => exact .bind (R := fun _ _ => False) (.lift rfl) (fun _ _ h => h.elim)
  | abort => exact .bind (R := fun _ _ => False) (.lift trivial) (fun _ _ h => h.elim)
  | ub => exact .bind (R := fun _ _ => False) (.lift trivial) (fun _ _ h => h.elim)
  | ok fs =>
    refine .bind (R := fun p q => p = fs ∧ q = fs) (.lift ⟨rfl, rfl⟩) ?_
    intro p q hpq
    rw [hpq.1, hpq.2]
    have hl := hlen _ _ hm
    rw [List.length_range'] at hl
    refine ⟨_, _, parElem_det _ _ _ _ _ hs, parElem_det _ _ _ _ _ (hab.1 ▸ hs), by simp, ?_, ?_⟩
    · simp [hab.1]
    · intro i hi
      simp only [List.getElem?_mapIdx]
      by_cases hr : start ≤ i ∧ i < stop
      · have ha : i < a.length := by omega
        have hb' : i < b.length := hab.1 ▸ ha
        have hlt : i - start < fs.length := by omega
        rw [List.getElem?_eq_getElem ha, List.getElem?_eq_getElem hb']
        simp only [hr, Option.map_some, and_self, if_true]
        rw [List.getD_eq_getElem _ _ hlt]
        exact congrArg some (hfs _ _ hm _ (List.getElem_mem hlt) _ _)
      · rw [hab.2 i (hi.resolve_right hr)]

theorem SameOn.eq {α : Type} {S : Nat → Prop} {a b : List α} (h : SameOn S a b) (hS : ∀ i < a.length, S i) : a = b := by
  apply List.ext_getElem? 
  intro i
  by_cases hi : i < a.length
  · exact h.2 i (hS i hi)
  · rw [List.getElem?_eq_none (by omega), List.getElem?_eq_none (by rw [← h.1]; omega)]

/-- A kernel that overwrites a whole list does not see what the list held. -/
theorem elemKernel_fresh {α : Type} (e e' : ExecKind) {body : Nat → Res (α → α)} (hb : ∀ i f, body i = .ok f → ∀ x y, f x = f y) {a b : List α}
    (hab : a.length = b.length) : NR.Det (· = ·) (elemKernel e 0 a.length body a) (elemKernel e' 0 b.length body b) := by
  rw [← hab]
  have h := elemKernel_over e e' 0 a.length hb (S := fun _ => False) (a := a) (b := b) ⟨hab, fun _ h => h.elim⟩ le_rfl
  exact h.mono fun x y ⟨hl, hxy⟩ => hxy.eq fun i hi => Or.inr ⟨Nat.zero_le _, by omega⟩

/-! ### Operators -/

section ops
variable [Add K] [Sub K] [Mul K] [Div K] [Neg K] [Zero K] [One K] [Add V] [Sub V] [Zero V] [SMul K V]

theorem linearBody_const (m : Mesh K) (src : VolField K V) (w : List K) (i : Nat) (f : V → V) (h : linearBody m src w i = .ok f) (x y : V) : f x = f y := by
  unfold linearBody at h
  split at h
  · obtain ⟨_, -, h⟩ := Res.bind_eq_ok.1 h
    obtain ⟨_, -, h⟩ := Res.bind_eq_ok.1 h
    obtain ⟨_, -, h⟩ := Res.bind_eq_ok.1 h
    obtain ⟨_, -, h⟩ := Res.bind_eq_ok.1 h
    obtain ⟨_, -, h⟩ := Res.bind_eq_ok.1 h
    cases h; rfl
  · obtain ⟨_, -, h⟩ := Res.bind_eq_ok.1 h
    obtain ⟨_, -, h⟩ := Res.bind_eq_ok.1 h
    cases h; rfl

theorem upwindBody_const [LinearOrder K] (m : Mesh K) (src : VolField K V) (flux w : List K) (i : Nat) (f : V → V)
    (h : upwindBody m src flux w i = .ok f) (x y : V) : f x = f y := by
  unfold upwindBody at h
  split at h
  · obtain ⟨_, -, h⟩ := Res.bind_eq_ok.1 h
    split at h
    · obtain ⟨_, -, h⟩ := Res.bind_eq_ok.1 h
      obtain ⟨_, -, h⟩ := Res.bind_eq_ok.1 h
      cases h; rfl
    · obtain ⟨_, -, h⟩ := Res.bind_eq_ok.1 h
      obtain ⟨_, -, h⟩ := Res.bind_eq_ok.1 h
      cases h; rfl
  · obtain ⟨_, -, h⟩ := Res.bind_eq_ok.1 h
    obtain ⟨_, -, h⟩ := Res.bind_eq_ok.1 h
    cases h; rfl

/-- Interpolation does the same on every executor, whatever the face field held. -/
theorem interpolateFlux_any [LinearOrder K] (s : InterpScheme) (e e' : ExecKind) (m : Mesh K) (w flux : List K) (src : VolField K V) {dst dst' : List V}
    (hd : dst.length = dst'.length) : NR.Det (· = ·) (interpolateFlux s e m w flux src dst) (interpolateFlux s e' m w flux src dst') := by
  cases s
  · exact elemKernel_fresh e e' (linearBody_const m src w) hd
  · exact elemKernel_fresh e e' (upwindBody_const m src flux w) hd

theorem interpolate_any (s : InterpScheme) (e e' : ExecKind) (m : Mesh K) (w : List K) (src : VolField K V) {dst dst' : List V}
    (hd : dst.length = dst'.length) : NR.Det (· = ·) (interpolate s e m w src dst) (interpolate s e' m w src dst') := by
  cases s
  · exact elemKernel_fresh e e' (linearBody_const m src w) hd
  · exact .lift_eq _

/-- So do face-normal gradients. -/
theorem fng_any (e e' : ExecKind) (m : Mesh K) (src : VolField K V) (δ : List K) {dst dst' : List V} (hd : dst.length = dst'.length)
    (hn : m.nInternalFaces ≤ dst.length) : NR.Det (· = ·) (computeFaceNormalGrad e m src δ dst) (computeFaceNormalGrad e' m src δ dst') := by
  unfold computeFaceNormalGrad
  refine NR.Det.bind (elemKernel_over e e' 0 m.nInternalFaces (fun i f h x y => ?_) (S := fun _ => False) ⟨hd, fun _ h => h.elim⟩ hn) fun d d' hdd => ?_
  · unfold fngInternalBody at h
    obtain ⟨_, -, h⟩ := Res.bind_eq_ok.1 h
    obtain ⟨_, -, h⟩ := Res.bind_eq_ok.1 h
    obtain ⟨_, -, h⟩ := Res.bind_eq_ok.1 h
    obtain ⟨_, -, h⟩ := Res.bind_eq_ok.1 h
    obtain ⟨_, -, h⟩ := Res.bind_eq_ok.1 h
    cases h; rfl
  · obtain ⟨hl, hdd⟩ := hdd
    rw [← hdd.1]
    refine NR.Det.mono (elemKernel_over e e' m.nInternalFaces d.length (fun i f h x y => ?_) hdd le_rfl) fun a b ⟨h1, h2⟩ => h2.eq fun i hi => ?_
    · unfold fngBoundaryBody at h
      obtain ⟨_, -, h⟩ := Res.bind_eq_ok.1 h
      obtain ⟨_, -, h⟩ := Res.bind_eq_ok.1 h
      obtain ⟨_, -, h⟩ := Res.bind_eq_ok.1 h
      obtain ⟨_, -, h⟩ := Res.bind_eq_ok.1 h
      cases h; rfl
    · simp only [false_or]
      omega

theorem addAssign_any (e e' : ExecKind) (a b : List V) : NR.Det (· = ·) (addAssign e a b) (addAssign e' a b) := by
  unfold addAssign
  split
  · exact .lift_eq _
  · exact elemKernel_any _ _ _ _ _ _ le_rfl

theorem sourceExplicit_any (e e' : ExecKind) (k : List K) (phi : VolField K V) (c : Coeff K) (src : List V) :
    NR.Det (· = ·) (sourceExplicit e k phi c src) (sourceExplicit e' k phi c src) := elemKernel_any _ _ _ _ _ _ le_rfl

theorem ddtExplicit_any (e e' : ExecKind) (m : Mesh K) (phi : VolField K V) (old : List V) (c : Coeff K) (dt : K) (src : List V) :
    NR.Det (· = ·) (ddtExplicit e m phi old c dt src) (ddtExplicit e' m phi old c dt src) := elemKernel_any _ _ _ _ _ _ le_rfl

theorem computeDiv_serial (m : Mesh K) (flux : List K) (phif : List V) (c : Coeff K) (r : List V) :
    NR.Det (· = ·) (computeDiv .serial m flux phif c r) (computeDiv .serial m flux phif c r) :=
  .bindEq (launch1_serial_det _ _ _ _) fun _ => .bindEq (launch1_serial_det _ _ _ _) fun _ => elemKernel_serial _ _ _ _

theorem divExplicit_serial [LinearOrder K] (m : Mesh K) (s : Option InterpScheme) (w : List K) (junk junk' : Nat → V) (flux : List K) (phi : VolField K V)
    (c : Coeff K) (src : List V) :
    NR.Det (· = ·) (divExplicit .serial m s w junk flux phi c src) (divExplicit .serial m s w junk' flux phi c src) := by
  cases s
  · exact .lift_eq _
  · exact .bindEq (.bindEq (interpolateFlux_any _ _ _ _ _ _ _ (by simp)) fun _ => computeDiv_serial _ _ _ _ _) fun _ => addAssign_any _ _ _ _

theorem surfaceIntegrateExplicit_serial (m : Mesh K) (flux : List V) (c : Coeff K) (src : List V) :
    NR.Det (· = ·) (surfaceIntegrateExplicit .serial m flux c src) (surfaceIntegrateExplicit .serial m flux c src) :=
  .bindEq (.bindEq (launch1_serial_det _ _ _ _) fun _ => .bindEq (launch1_serial_det _ _ _ _) fun _ => elemKernel_serial _ _ _ _) fun _ => addAssign_any _ _ _ _

theorem laplacianExplicit_serial {m : Mesh K} (hm : m.WF) (built : Bool) (δ : List K) (junk junk' : Nat → V) (gamma : List K) (phi : VolField K V)
    (c : Coeff K) (src : List V) :
    NR.Det (· = ·) (laplacianExplicit .serial m built δ junk gamma phi c src) (laplacianExplicit .serial m built δ junk' gamma phi c src) := by
  have hf := hm.faces
  unfold laplacianExplicit
  split
  · refine .bindEq (.bindEq (fng_any _ _ _ _ _ (by simp) (by simp; omega)) fun _ => ?_) fun _ => addAssign_any _ _ _ _
    exact .bindEq (launch1_serial_det _ _ _ _) fun _ => .bindEq (launch1_serial_det _ _ _ _) fun _ => elemKernel_serial _ _ _ _
  · exact .lift_eq _

theorem computeGrad_serial (m : Mesh K) (w : List K) (junk junk' : Nat → K) (phi : VolField K K) (out : List (Vec K)) :
    NR.Det (· = ·) (computeGrad .serial m w junk phi out) (computeGrad .serial m w junk' phi out) :=
  .bindEq (interpolate_any _ _ _ _ _ _ (by simp)) fun _ =>
    .bindEq (launch1_serial_det _ _ _ _) fun _ => .bindEq (launch1_serial_det _ _ _ _) fun _ => elemKernel_serial _ _ _ _

/-! ### Assembly -/

theorem launchLS_serial (start stop : Nat) (body : Nat → Res (List (Act LSArr K))) (ls : LinearSystem K) :
    NR.Det (· = ·) (launchLS .serial start stop body ls) (launchLS .serial start stop body ls) :=
  .bindEq (launch_serial_det _ _ _ _) fun _ => .pure rfl

/-! ### Boundary conditions -/

theorem bcKernel_serial (p : Patch) (body : Nat → Res (List (Act BArr V))) (vf : K) (φ : VolField K V) :
    NR.Det (· = ·) (bcKernel .serial p body vf φ) (bcKernel .serial p body vf φ) :=
  .bindEq (launch_serial_det _ _ _ _) fun _ => .bindEq (launch1_serial_det _ _ _ _) fun _ => .pure rfl

theorem correct_serial (m : Mesh K) (b : VolumeBoundary V) (φ : VolField K V) : NR.Det (· = ·) (b.correct .serial m φ) (b.correct .serial m φ) := by
  obtain ⟨p, k⟩ := b
  cases k
  · exact bcKernel_serial _ _ _ _
  · exact bcKernel_serial _ _ _ _
  · exact bcKernel_serial _ _ _ _
  · exact .pure rfl
  · exact .pure rfl

theorem correctBCs_serial (m : Mesh K) : ∀ (bcs : List (VolumeBoundary V)) (φ : VolField K V),
    NR.Det (· = ·) (correctBoundaryConditions .serial m bcs φ) (correctBoundaryConditions .serial m bcs φ)
  | [], _ => .pure rfl
  | b :: bs, φ => .bindEq (correct_serial m b φ) fun ψ => correctBCs_serial m bs ψ

end ops

/-! ### Expressions -/

/-- Two operators that always do the same. -/
structure OpDet (o o' : OpModel K V) : Prop where
  type : o'.type = o.type
  coeff : o'.coeff = o.coeff
  expl : Option.Rel (fun f f' => ∀ c t dt src, NR.Det (· = ·) (f c t dt src) (f' c t dt src)) o.expl o'.expl
  impl : Option.Rel (fun f f' => ∀ c t dt ls, NR.Det (· = ·) (f c t dt ls) (f' c t dt ls)) o.impl o'.impl

instance : CoeffStable (OpDet (K := K) (V := V)) where
  coeff h := h.coeff
  update h _ := ⟨h.type, rfl, h.expl, h.impl⟩

theorem explOps_det {o o' : List (OpModel K V)} (h : List.Forall₂ OpDet o o') (t dt : K) (src : List V) :
    NR.Det (· = ·) (explOps t dt o src) (explOps t dt o' src) := by
  refine NR.Det.foldlM (R := (· = ·)) (fun a b o o' hab ho => ?_) h rfl
  subst hab
  unfold explStep
  rw [ho.type]
  cases hty : o.type
  · exact .pure rfl
  · unfold OpModel.runExpl
    rw [ho.coeff]
    have := ho.expl
    generalize o.expl = x at this
    generalize o'.expl = y at this
    cases this with
    | none => exact .pure rfl
    | some hf => exact hf _ _ _ _

theorem implOps_det {o o' : List (OpModel K V)} (h : List.Forall₂ OpDet o o') (t dt : K) (ls : LinearSystem V) :
    NR.Det (· = ·) (implOps t dt o ls) (implOps t dt o' ls) := by
  refine NR.Det.foldlM (R := (· = ·)) (fun a b o o' hab ho => ?_) h rfl
  subst hab
  unfold implStep
  rw [ho.type]
  cases hty : o.type
  · unfold OpModel.runImpl
    rw [ho.coeff]
    have := ho.impl
    generalize o.impl = x at this
    generalize o'.impl = y at this
    cases this with
    | none => exact .pure rfl
    | some hf => exact hf _ _ _ _
  · exact .pure rfl

variable {s s' : OpHeap K V}

theorem explicit_det [Zero K] (h : List.Forall₂ OpDet s s') (eqn : Expr) (src : List V) :
    NR.Det (· = ·) (eqn.explicitOperation s src) (eqn.explicitOperation s' src) :=
  .bind (.lift (derefs_rel h _)) fun _ _ hT => explOps_det hT _ _ _

theorem explicitT_det (h : List.Forall₂ OpDet s s') (eqn : Expr) (t dt : K) (src : List V) :
    NR.Det (· = ·) (eqn.explicitOperationT s t dt src) (eqn.explicitOperationT s' t dt src) :=
  .bind (.lift (derefs_rel h _)) fun _ _ hT => explOps_det hT _ _ _

theorem implicit_det [Zero K] (h : List.Forall₂ OpDet s s') (eqn : Expr) (ls : LinearSystem V) :
    NR.Det (· = ·) (eqn.implicitOperation s ls) (eqn.implicitOperation s' ls) :=
  .bind (.lift (derefs_rel h _)) fun _ _ hT => implOps_det hT _ _ _

theorem implicitT_det (h : List.Forall₂ OpDet s s') (eqn : Expr) (t dt : K) (ls : LinearSystem V) :
    NR.Det (· = ·) (eqn.implicitOperationT s t dt ls) (eqn.implicitOperationT s' t dt ls) :=
  .bind (.lift (derefs_rel h _)) fun _ _ hT => implOps_det hT _ _ _

/-! ### The terms -/

section run
variable {K : Type} [Add K] [Sub K] [Mul K] [Div K] [Neg K] [Zero K] [One K] [LinearOrder K]

/-- On the serial executor the terms always do the same, whatever fresh memory holds. -/
theorem callOps_serial {m : Mesh K} (hm : m.WF) (sp : SparsityPattern) (sch : InterpScheme) (w δ : List K) (junk junk' : Nat → K) (calls : List (Call K))
    (st : TimeState K K) :
    List.Forall₂ OpDet (callOps ⟨.serial, m, sp, sch, w, δ, junk⟩ calls st) (callOps ⟨.serial, m, sp, sch, w, δ, junk'⟩ calls st) := by
  unfold callOps
  rw [List.forall₂_map_left_iff, List.forall₂_map_right_iff, List.forall₂_same]
  intro c _
  cases c
  case expDiv flux of => exact ⟨rfl, rfl, .some fun c _ _ src => divExplicit_serial _ _ _ _ _ _ _ _ _, .some fun c _ _ ls =>
    .bindEq (launchLS_serial _ _ _ _) fun _ => launchLS_serial _ _ _ _⟩
  case expFlux flux => exact ⟨rfl, rfl, .some fun c _ _ src => surfaceIntegrateExplicit_serial _ _ _ _, .none⟩
  case expSource k of => exact ⟨rfl, rfl, .some fun c _ _ src => sourceExplicit_any _ _ _ _ _ _, .some fun c _ _ ls => launchLS_serial _ _ _ _⟩
  case impDdt => exact ⟨rfl, rfl, .some fun c _ _ src => ddtExplicit_any _ _ _ _ _ _ _ _, .some fun c _ _ ls => launchLS_serial _ _ _ _⟩
  case impSource k of => exact ⟨rfl, rfl, .some fun c _ _ src => sourceExplicit_any _ _ _ _ _ _, .some fun c _ _ ls => launchLS_serial _ _ _ _⟩
  case impDiv flux of => exact ⟨rfl, rfl, .some fun c _ _ src => divExplicit_serial _ _ _ _ _ _ _ _ _, .some fun c _ _ ls =>
    .bindEq (launchLS_serial _ _ _ _) fun _ => launchLS_serial _ _ _ _⟩
  case impLaplacian gamma of => exact ⟨rfl, rfl, .some fun c _ _ src => laplacianExplicit_serial hm _ _ _ _ _ _ _ _, .some fun c _ _ ls =>
    .bindEq (launchLS_serial _ _ _ _) fun _ => launchLS_serial _ _ _ _⟩

/-! ### Solving -/

theorem sparsity_serial_det {m : Mesh K} (hm : m.WF) : NR.Det (· = ·) (sparsityUpdate .serial m) (sparsityUpdate .serial m) := by
  obtain ⟨sp, hsp⟩ := C14_terminates m hm .serial
  have h : (sparsityUpdate .serial m).Is (.ok sp) := fun out => ⟨fun ho => sparsity_serial_single m hm _ _ ho hsp, fun ho => ho ▸ hsp⟩
  exact .of_is h h

theorem solver_repeat {table : SolverTable K} (ht : table.Repeatable) (dict : Dict) (ls : LinearSystem K) (x : List K) {β : Type} {k : List K → NR β}
    (hk : ∀ y, NR.Det (· = ·) (k y) (k y)) :
    NR.Det (· = ·) (do let solver ← NR.lift (createSolver table dict); let y ← solver ls x; k y) (do let solver ← NR.lift (createSolver table dict); let y ← solver ls x; k y) := by
  refine .bind (R := fun f g => f = g ∧ ∃ r, NR.Is (f ls x) r) (.lift ?_) ?_
  · unfold createSolver
    refine Res.Rel.same fun key => ?_
    cases key <;> try exact trivial
    rename_i name
    cases hf : AMap.find? table name with
    | none => simp only [hf]; trivial
    | some mk =>
      simp only [hf]
      exact ⟨rfl, ht name mk hf dict ls x⟩
  · rintro f _ ⟨rfl, r, hr⟩
    exact .bindEq (.of_is hr hr) hk

/-- The operators behind two expressions always do the same. -/
def OpsDet (ops ops' : OpsOf K K) : Prop := ∀ st, List.Forall₂ OpDet (ops st) (ops' st)

variable {ops ops' : OpsOf K K} (ho : OpsDet ops ops') (eqn : Expr)
include ho

theorem forwardEuler_repeat (m : Mesh K) (bcs : List (VolumeBoundary K)) (st : TimeState K K) (dt : K) :
    NR.Det (· = ·) (forwardEuler .serial m bcs ops eqn st dt) (forwardEuler .serial m bcs ops' eqn st dt) := by
  unfold forwardEuler
  refine .bindEq (explicit_det (ho st) eqn _) fun src => .bindEq (elemKernel_any _ _ _ _ _ _ le_rfl) fun sdt => .bindEq ?_ fun new =>
    .bindEq (correctBCs_serial m bcs _) fun sol => .pure rfl
  unfold subField
  split
  · exact .lift_eq _
  · exact elemKernel_any _ _ _ _ _ _ le_rfl

theorem backwardEuler_repeat {m : Mesh K} (hm : m.WF) {table : SolverTable K} (ht : table.Repeatable) (dict : Dict) (st : TimeState K K) (t dt : K) :
    NR.Det (· = ·) (backwardEuler .serial m table dict ops eqn st t dt) (backwardEuler .serial m table dict ops' eqn st t dt) := by
  unfold backwardEuler
  refine .bindEq (explicit_det (ho st) eqn _) fun src => .bindEq ?_ fun ls => solver_repeat ht _ _ _ fun y => .pure rfl
  exact .bindEq (sparsity_serial_det hm) fun sp => .bindEq (.lift_eq _) fun ls => .bindEq (implicit_det (ho _) eqn _) fun ls => implicitT_det (ho _) eqn _ _ _

omit ho in
theorem nfAssert_repeat (p : Prop) : NR.Det (· = ·) (nfAssert p) (nfAssert p) := by
  by_cases hp : p
  · have : (nfAssert p).Is (.ok ()) := fun out => by simp [nfAssert, hp]
    exact .of_is this this
  · have : (nfAssert p).Is .abort := fun out => by simp [nfAssert, hp]
    exact .of_is this this

omit ho in
/-- Integrators that hold expressions whose operators always do the same. -/
def RKDet (o o' : RKObj K) : Prop := o.tn = o'.tn ∧ o.yn = o'.yn ∧ Option.Rel (fun x y => OpsDet x.1 y.1 ∧ x.2 = y.2) o.expr o'.expr

theorem rungeKutta_repeat (dict : Dict) (st : TimeState K K) (t dt : K) :
    NR.Det (· = ·) (do let r ← rungeKutta .serial dict ops eqn .new st t dt; return r.2) (do let r ← rungeKutta .serial dict ops' eqn .new st t dt; return r.2) := by
  refine .bind (R := fun r r' => r.2 = r'.2) ?_ fun r r' h => .pure h
  unfold rungeKutta
  refine .bind (R := RKDet) (.lift ?_) fun o o' hoo => .bind (R := RKDet) ?_ fun o2 o2' h2 => ?_
  · simp only [rkEnsure, RKObj.new, rkInit]
    refine Res.Rel.same fun key => ?_
    cases key <;> try exact trivial
    exact Res.Rel.same fun _ => ⟨rfl, rfl, .some ⟨ho, rfl⟩⟩
  · unfold arkEvolve explicitRKSolve
    obtain ⟨h1, h2, h3⟩ := hoo
    rw [← h2]
    generalize o.expr = x at h3
    generalize o'.expr = y at h3
    cases h3 with
    | none => exact .bind (R := fun _ _ => False) (.lift trivial) fun _ _ h => h.elim
    | @some p q hpq =>
      obtain ⟨opsP, eP⟩ := p
      obtain ⟨opsQ, eQ⟩ := q
      obtain ⟨hd, rfl⟩ := hpq
      refine .bindEq (.bindEq (explicit_det (hd _) _ _) fun _ => elemKernel_any _ _ _ _ _ _ le_rfl) fun y => .pure ⟨?_, rfl, .some ⟨hd, rfl⟩⟩
      rw [h1]
  · obtain ⟨h1, h2, h3⟩ := h2
    rw [← h1, ← h2]
    exact .bindEq (nfAssert_repeat _) fun _ => .bindEq (elemKernel_any _ _ _ _ _ _ le_rfl) fun _ => .pure rfl

theorem solveSteady_repeat {m : Mesh K} (hm : m.WF) {table : SolverTable K} (ht : table.Repeatable) (dict : Dict) (st : TimeState K K) :
    NR.Det (· = ·) (solveSteady .serial m table dict ops eqn st) (solveSteady .serial m table dict ops' eqn st) := by
  unfold solveSteady
  refine .bindEq ?_ fun ls => solver_repeat ht _ _ _ fun y => .pure rfl
  refine .bindEq (sparsity_serial_det hm) fun sp => .bindEq (.lift_eq _) fun ls => .bindEq (implicit_det (ho _) eqn _) fun ls =>
    .bindEq (explicit_det (ho _) eqn _) fun src => ?_
  exact .bindEq (elemKernel_any _ _ _ _ _ _ le_rfl) fun _ => .pure rfl

theorem dslSolve_repeat {m : Mesh K} (hm : m.WF) (bcs : List (VolumeBoundary K)) {table : SolverTable K} (ht : table.Repeatable) (fvSchemes fvSolution : Dict)
    (st : TimeState K K) (t dt : K) :
    NR.Det (· = ·) (dslSolve .serial m bcs table fvSchemes fvSolution ops eqn st t dt) (dslSolve .serial m bcs table fvSchemes fvSolution ops' eqn st t dt) := by
  unfold dslSolve
  split
  · exact .lift_eq _
  · split
    · refine .bindEq (.lift_eq _) fun dict => .bindEq (.lift_eq _) fun type => ?_
      split
      · exact forwardEuler_repeat ho eqn m bcs st dt
      · exact backwardEuler_repeat ho eqn hm ht _ st t dt
      · exact rungeKutta_repeat ho eqn _ st t dt
      · exact .lift_eq _
    · exact solveSteady_repeat ho eqn hm ht _ st

end run
end NeoFOAM
