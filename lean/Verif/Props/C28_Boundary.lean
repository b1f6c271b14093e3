import Verif.Base.Writes
import Verif.Spec.Boundary
import Verif.Spec.Witness
import Verif.Props.C12_Patches
import Verif.Proofs.Assembly

/-!
# C28 – boundary conditions write their own patch only and prescribe the documented values
-/
namespace NeoFOAM
variable {K V : Type}

section
variable [Div K] [Zero K] [One K] [Add V] [Zero V] [SMul K V]

/-- The data a storing condition leaves at face `b` (used in proofs only). -/
def bcData (m : Mesh K) (φ : VolField K V) (b : Nat) : VolBCKind V → BEntry K V
  | .fixedValue v => ⟨v, v, 1, v⟩
  | .fixedGradient g => ⟨φ.cell (m.fc b) + (1 / m.bnd.deltaCoeffs.getD b 0) • g, 0, 0, g⟩
  | .extrapolated => ⟨φ.cell (m.fc b), φ.cell (m.fc b), 1, 0⟩
  | _ => φ.entry b

theorem getD_congr {α : Type} {l l' : List α} {i : Nat} (d : α) (h : l'[i]? = l[i]?) : l'.getD i d = l.getD i d := by
  simp [List.getD, h]

theorem list_ext_getD {α : Type} {l l' : List α} (d : α) (n : Nat) (h1 : l.length = n) (h2 : l'.length = n)
    (h : ∀ i < n, l.getD i d = l'.getD i d) : l = l' := by
  apply List.ext_getElem (by omega)
  intro i ha hb
  have := h i (by omega)
  simpa [List.getD, ha, hb] using this

/-- What one condition leaves (used in proofs only). -/
structure BCStep (m : Mesh K) (c : VolumeBoundary V) (φ φ' : VolField K V) : Prop where
  on : φ'.On m
  int : φ'.internal = φ.internal
  new : c.kind.Writes → ∀ b < m.nBoundaryFaces, c.patch.Has b → φ'.entry b = bcData m φ b c.kind
  old : ∀ b < m.nBoundaryFaces, ¬ (c.kind.Writes ∧ c.patch.Has b) → φ'.entry b = φ.entry b

theorem bcKernel_ok (e : ExecKind) (m : Mesh K) (φ : VolField K V) (ho : φ.On m)
    (p : Patch) (hp : p.end_ ≤ m.nBoundaryFaces) (body : Nat → Res (List (Act BArr V))) (vf : K)
    (ws : Nat → List (Wr BArr V)) (x : Nat → BEntry K V)
    (hb : ∀ i, p.start_ ≤ i → i < p.end_ → body i = .ok ((ws i).map Wr.act))
    (hws : ∀ i, p.start_ ≤ i → i < p.end_ → (ws i).Perm
      [⟨.value, i, (x i).value⟩, ⟨.refValue, i, (x i).refValue⟩, ⟨.refGrad, i, (x i).refGrad⟩])
    (hx : ∀ i, p.start_ ≤ i → i < p.end_ → (x i).fraction = vf) :
    (bcKernel e p body vf φ).Ok (fun φ' => φ'.On m ∧ φ'.internal = φ.internal ∧
      (∀ b < m.nBoundaryFaces, p.Has b → φ'.entry b = x b) ∧
      ∀ b < m.nBoundaryFaces, ¬ p.Has b → φ'.entry b = φ.entry b) := by
  have hmem : ∀ i, p.start_ ≤ i → i < p.end_ → ∀ w, w ∈ ws i ↔ w = ⟨.value, i, (x i).value⟩ ∨
      w = ⟨.refValue, i, (x i).refValue⟩ ∨ w = ⟨.refGrad, i, (x i).refGrad⟩ := by
    intro i h1 h2 w
    rw [(hws i h1 h2).mem_iff]; simp
  have hidx : ∀ i, p.start_ ≤ i → i < p.end_ → ∀ w ∈ ws i, w.idx = i ∧ w.arr ≠ .internal := by
    intro i h1 h2 w hw
    rcases (hmem i h1 h2 w).1 hw with rfl | rfl | rfl <;> simp
  unfold bcKernel
  refine NR.Ok.bind (launch_writes e p.range.1 p.range.2 body ws φ.arrs hb ?_ ?_ ?_) ?_
  · intro i h1 h2 w hw
    have h2' : i < p.end_ := h2
    rcases (hmem i h1 h2 w).1 hw with rfl | rfl | rfl <;>
      simp only [VolField.arrs, ho.val, ho.ref, ho.grad] <;> omega
  · intro i h1 h2
    refine ((hws i h1 h2).pairwise_iff (fun {a b} h => Ne.symm h)).2 ?_
    simp [Wr.loc]
  · intro i j h1 h2 h3 h4 hij w hw w' hw' he
    have a := (hidx i h1 h2 w hw).1
    have b := (hidx j h3 h4 w' hw').1
    simp only [Wr.loc, Prod.mk.injEq] at he
    omega
  · intro a ha
    have hvf : (launch1 e p.range.1 p.range.2 (fun i => .ok [Act.write () i vf]) φ.bVF).Ok
        (fun f => f.length = φ.bVF.length ∧ (∀ i, p.start_ ≤ i → i < p.end_ → f[i]? = some vf) ∧
          ∀ i, ¬ p.Has i → f[i]? = φ.bVF[i]?) := by
      unfold launch1
      refine NR.Ok.bind (launch_writes e p.range.1 p.range.2 _ (fun i => [⟨(), i, vf⟩]) (fun _ => φ.bVF)
        (fun i _ _ => rfl) ?_ ?_ ?_) ?_
      · intro i h1 h2 w hw
        have h2' : i < p.end_ := h2
        rw [List.mem_singleton] at hw
        subst hw
        show i < φ.bVF.length
        rw [ho.vf]; omega
      · intro i _ _; simp
      · intro i j h1 h2 h3 h4 hij w hw w' hw' he
        rw [List.mem_singleton] at hw hw'
        subst hw hw'
        simp only [Wr.loc, Prod.mk.injEq] at he
        omega
      · intro f hf
        refine NR.Ok.pure ⟨hf.len (), ?_, ?_⟩
        · intro i h1 h2
          exact hf.new ⟨(), i, vf⟩ (by
            rw [List.mem_flatMap]
            refine ⟨i, ?_, by simp⟩
            rw [List.mem_range'_1]; simp only [Patch.range]; omega)
        · intro i hi
          refine hf.old () i (fun w hw he => hi ?_)
          obtain ⟨j, hj, hw⟩ := List.mem_flatMap.1 hw
          rw [List.mem_range'_1] at hj
          rw [List.mem_singleton] at hw
          subst hw
          simp only [Wr.loc, Prod.mk.injEq] at he
          simp only [Patch.range] at hj
          constructor <;> omega
    refine NR.Ok.bind hvf ?_
    rintro f ⟨hf1, hf2, hf3⟩
    have hnew : ∀ i, p.start_ ≤ i → i < p.end_ → ∀ w ∈ ws i, (a w.arr)[w.idx]? = some w.val := by
      intro i h1 h2 w hw
      refine ha.new w ?_
      rw [List.mem_flatMap]
      refine ⟨i, ?_, hw⟩
      rw [List.mem_range'_1]; simp only [Patch.range]; omega
    have hold : ∀ r i, (r = .internal ∨ ¬ p.Has i) → (a r)[i]? = (φ.arrs r)[i]? := by
      intro r i hi
      refine ha.old r i (fun w hw he => ?_)
      obtain ⟨j, hj, hw⟩ := List.mem_flatMap.1 hw
      rw [List.mem_range'_1] at hj
      simp only [Patch.range] at hj
      have := hidx j (by omega) (by omega) w hw
      simp only [Wr.loc, Prod.mk.injEq] at he
      rcases hi with rfl | hi
      · exact this.2 he.1
      · exact hi ⟨by omega, by omega⟩
    have hint : a .internal = φ.internal := List.ext_getElem? (fun i => hold .internal i (Or.inl rfl))
    refine NR.Ok.pure ⟨⟨?_, ?_, ?_, ?_, ?_⟩, hint, ?_, ?_⟩
    · rw [hint]; exact ho.int
    · exact (ha.len .value).trans ho.val
    · exact (ha.len .refValue).trans ho.ref
    · exact hf1.trans ho.vf
    · exact (ha.len .refGrad).trans ho.grad
    · rintro b hb' ⟨h1, h2⟩
      have e1 := hnew b h1 h2 _ ((hmem b h1 h2 _).2 (Or.inl rfl))
      have e2 := hnew b h1 h2 _ ((hmem b h1 h2 _).2 (Or.inr (Or.inl rfl)))
      have e3 := hnew b h1 h2 _ ((hmem b h1 h2 _).2 (Or.inr (Or.inr rfl)))
      have e4 := hf2 b h1 h2
      have e5 := hx b h1 h2
      simp only [VolField.entry, List.getD]
      rw [e1, e2, e3, e4, ← e5]
      rfl
    · intro b hb' hn
      have e1 := hold .value b (Or.inr hn)
      have e2 := hold .refValue b (Or.inr hn)
      have e3 := hold .refGrad b (Or.inr hn)
      have e4 := hf3 b hn
      simp only [VolField.arrs] at e1 e2 e3
      simp only [VolField.entry, List.getD, e1, e2, e3, e4]

omit [Div K] [Zero K] [One K] [Add V] [Zero V] [SMul K V] in
theorem bcKernel_runs (e : ExecKind) (p : Patch) (body : Nat → Res (List (Act BArr V))) (vf : K)
    (φ : VolField K V) : (bcKernel e p body vf φ).Runs :=
  NR.Runs.bind (launch_runs _ _ _ _ _) fun _ _ => NR.Runs.bind (launch1_runs _ _ _ _ _) fun _ _ => NR.Runs.pure _

theorem correct_ok (e : ExecKind) (m : Mesh K) (h : m.WF) (φ : VolField K V) (ho : φ.On m)
    (c : VolumeBoundary V) (hp : c.patch.end_ ≤ m.nBoundaryFaces) :
    (c.correct e m φ).Ok (BCStep m c φ) := by
  obtain ⟨p, k⟩ := c
  have hcell : ∀ b < m.nBoundaryFaces, rd φ.internal (m.fc b) = .ok (φ.cell (m.fc b)) := by
    intro b hb
    exact rd_getD _ (by rw [ho.int]; exact h.fc_lt b hb)
  have hfc : ∀ b < m.nBoundaryFaces, rd m.bnd.faceCells b = .ok (m.fc b) := by
    intro b hb
    exact rd_getD _ (by rw [h.fcLen]; exact hb)
  have hdc : ∀ b < m.nBoundaryFaces, rd m.bnd.deltaCoeffs b = .ok (m.bnd.deltaCoeffs.getD b 0) := by
    intro b hb
    exact rd_getD _ (by rw [h.bdcLen]; exact hb)
  have hp' : p.end_ ≤ m.nBoundaryFaces := hp
  cases k with
  | fixedValue v =>
    refine (bcKernel_ok e m φ ho p hp (fixedValueBody v) 1
      (fun i => [⟨.refValue, i, v⟩, ⟨.value, i, v⟩, ⟨.refGrad, i, v⟩])
      (fun i => bcData m φ i (.fixedValue v)) (fun i _ _ => rfl) (fun i _ _ => ?_)
      (fun i _ _ => rfl)).mono ?_
    · exact List.Perm.swap _ _ _
    · rintro φ' ⟨h1, h2, h3, h4⟩
      exact ⟨h1, h2, fun _ b hb hc => h3 b hb hc, fun b hb hc => h4 b hb (fun hh => hc ⟨trivial, hh⟩)⟩
  | fixedGradient g =>
    refine (bcKernel_ok e m φ ho p hp (fixedGradientBody m φ g) 0
      (fun i => [⟨.refGrad, i, g⟩, ⟨.value, i, φ.cell (m.fc i) + (1 / m.bnd.deltaCoeffs.getD i 0) • g⟩,
        ⟨.refValue, i, 0⟩])
      (fun i => bcData m φ i (.fixedGradient g)) (fun i h1 h2 => ?_) (fun i _ _ => ?_)
      (fun i _ _ => rfl)).mono ?_
    · unfold fixedGradientBody
      rw [hfc i (by omega)]
      simp only [Res.ok_bind]
      rw [hcell i (by omega)]
      simp only [Res.ok_bind]
      rw [hdc i (by omega)]
      rfl
    · refine (List.Perm.swap _ _ _).trans ?_
      exact List.Perm.cons _ (List.Perm.swap _ _ _)
    · rintro φ' ⟨h1, h2, h3, h4⟩
      exact ⟨h1, h2, fun _ b hb hc => h3 b hb hc, fun b hb hc => h4 b hb (fun hh => hc ⟨trivial, hh⟩)⟩
  | extrapolated =>
    refine (bcKernel_ok e m φ ho p hp (extrapolatedBody m φ) 1
      (fun i => [⟨.value, i, φ.cell (m.fc i)⟩, ⟨.refValue, i, φ.cell (m.fc i)⟩, ⟨.refGrad, i, 0⟩])
      (fun i => bcData m φ i .extrapolated) (fun i h1 h2 => ?_) (fun i _ _ => ?_)
      (fun i _ _ => rfl)).mono ?_
    · unfold extrapolatedBody
      rw [hfc i (by omega)]
      simp only [Res.ok_bind]
      rw [hcell i (by omega)]
      rfl
    · exact List.Perm.refl _
    · rintro φ' ⟨h1, h2, h3, h4⟩
      exact ⟨h1, h2, fun _ b hb hc => h3 b hb hc, fun b hb hc => h4 b hb (fun hh => hc ⟨trivial, hh⟩)⟩
  | calculated => exact NR.Ok.pure ⟨ho, rfl, fun hw => hw.elim, fun _ _ _ => rfl⟩
  | empty => exact NR.Ok.pure ⟨ho, rfl, fun hw => hw.elim, fun _ _ _ => rfl⟩

theorem correct_runs (e : ExecKind) (m : Mesh K) (φ : VolField K V) (c : VolumeBoundary V) :
    (c.correct e m φ).Runs := by
  unfold VolumeBoundary.correct
  cases c.kind <;> first | exact bcKernel_runs _ _ _ _ _ | exact NR.Runs.pure _

theorem correctAll_runs (e : ExecKind) (m : Mesh K) : ∀ (cs : List (VolumeBoundary V)) (φ : VolField K V),
    (correctBoundaryConditions e m cs φ).Runs
  | [], _ => NR.Runs.pure _
  | c :: cs, φ => NR.Runs.bind (correct_runs e m φ c) fun _ _ => correctAll_runs e m cs _

open Classical in
/-- The data the conditions leave at face `b`: of the last storing condition whose patch has the face (used
in proofs only). -/
noncomputable def bcFinal (m : Mesh K) (φ : VolField K V) (b : Nat) (cs : List (VolumeBoundary V)) : BEntry K V :=
  cs.foldl (fun x c => if c.kind.Writes ∧ c.patch.Has b then bcData m φ b c.kind else x) (φ.entry b)

theorem bcData_congr (m : Mesh K) {φ φ' : VolField K V} (hi : φ'.internal = φ.internal) (b : Nat)
    (k : VolBCKind V) (hw : k.Writes) : bcData m φ' b k = bcData m φ b k := by
  cases k <;> first | exact hw.elim | simp [bcData, VolField.cell, hi]

theorem correctAll_ok (e : ExecKind) (m : Mesh K) (h : m.WF) : ∀ (cs : List (VolumeBoundary V)) (φ : VolField K V),
    φ.On m → (∀ c ∈ cs, c.patch.end_ ≤ m.nBoundaryFaces) →
    (correctBoundaryConditions e m cs φ).Ok (fun φ' => φ'.On m ∧ φ'.internal = φ.internal ∧
      ∀ b < m.nBoundaryFaces, φ'.entry b = bcFinal m φ b cs)
  | [], φ, ho, _ => NR.Ok.pure ⟨ho, rfl, fun _ _ => rfl⟩
  | c :: cs, φ, ho, hp => by
    refine NR.Ok.bind (correct_ok e m h φ ho c (hp c (by simp))) ?_
    rintro φ1 ⟨h1, h2, h3, h4⟩
    refine (correctAll_ok e m h cs φ1 h1 (fun c' hc' => hp c' (by simp [hc']))).mono ?_
    rintro φ' ⟨g1, g2, g3⟩
    refine ⟨g1, g2.trans h2, fun b hb => ?_⟩
    rw [g3 b hb]
    classical
    unfold bcFinal
    rw [List.foldl_cons]
    have hinit : φ1.entry b = if c.kind.Writes ∧ c.patch.Has b then bcData m φ b c.kind else φ.entry b := by
      by_cases hc : c.kind.Writes ∧ c.patch.Has b
      · rw [if_pos hc]; exact h3 hc.1 b hb hc.2
      · rw [if_neg hc]; exact h4 b hb hc
    rw [hinit]
    congr 1
    funext x c'
    by_cases hc : c'.kind.Writes ∧ c'.patch.Has b
    · rw [if_pos hc, if_pos hc, bcData_congr m h2 b _ hc.1]
    · rw [if_neg hc, if_neg hc]

theorem bcFinal_none (m : Mesh K) (φ : VolField K V) (b : Nat) (cs : List (VolumeBoundary V))
    (hn : ∀ c ∈ cs, c.kind.Writes → ¬ c.patch.Has b) : bcFinal m φ b cs = φ.entry b := by
  classical
  unfold bcFinal
  induction cs with
  | nil => rfl
  | cons c cs ih =>
    rw [List.foldl_cons, if_neg (fun hc => hn c (by simp) hc.1 hc.2)]
    exact ih (fun c' hc' => hn c' (by simp [hc']))

theorem foldl_if_none {α β : Type} (P : α → Prop) [DecidablePred P] (g : α → β) (l : List α) (x : β)
    (hn : ∀ c ∈ l, ¬ P c) : l.foldl (fun x c => if P c then g c else x) x = x := by
  induction l with
  | nil => rfl
  | cons c l ih =>
    rw [List.foldl_cons, if_neg (hn c (by simp))]
    exact ih (fun c' hc' => hn c' (by simp [hc']))

theorem bcFinal_last (m : Mesh K) (φ : VolField K V) (b : Nat) (pre post : List (VolumeBoundary V))
    (c : VolumeBoundary V) (hw : c.kind.Writes) (hb : c.patch.Has b)
    (hn : ∀ c' ∈ post, c'.kind.Writes → ¬ c'.patch.Has b) :
    bcFinal m φ b (pre ++ c :: post) = bcData m φ b c.kind := by
  classical
  unfold bcFinal
  rw [List.foldl_append, List.foldl_cons, if_pos ⟨hw, hb⟩]
  exact foldl_if_none _ _ _ _ (fun c' hc' h => hn c' hc' h.1 h.2)

theorem bcFinal_idem (m : Mesh K) {φ φ' : VolField K V} (hi : φ'.internal = φ.internal) (b : Nat)
    (cs : List (VolumeBoundary V)) (h : φ'.entry b = bcFinal m φ b cs) :
    bcFinal m φ' b cs = bcFinal m φ b cs := by
  classical
  rcases em (∃ c ∈ cs, c.kind.Writes ∧ c.patch.Has b) with hex | hex
  · have : ∀ (l : List (VolumeBoundary V)) (x y : BEntry K V), (∃ c ∈ l, c.kind.Writes ∧ c.patch.Has b) →
        l.foldl (fun x c => if c.kind.Writes ∧ c.patch.Has b then bcData m φ' b c.kind else x) x
        = l.foldl (fun x c => if c.kind.Writes ∧ c.patch.Has b then bcData m φ b c.kind else x) y := by
      intro l
      induction l with
      | nil => rintro x y ⟨c, hc, _⟩; simp at hc
      | cons c l ih =>
        rintro x y ⟨c', hc', h'⟩
        rw [List.foldl_cons, List.foldl_cons]
        by_cases hl : ∃ c ∈ l, c.kind.Writes ∧ c.patch.Has b
        · exact ih _ _ hl
        · have hcc : c' = c := by
            rcases List.mem_cons.1 hc' with rfl | hc'
            · rfl
            · exact absurd ⟨c', hc', h'⟩ hl
          subst hcc
          rw [if_pos h', if_pos h', foldl_if_none _ _ _ _ (fun x hx hh => hl ⟨x, hx, hh⟩),
            foldl_if_none _ _ _ _ (fun x hx hh => hl ⟨x, hx, hh⟩), bcData_congr m hi b _ h'.1]
    exact this cs _ _ hex
  · have hn : ∀ c ∈ cs, c.kind.Writes → ¬ c.patch.Has b := fun c hc hw hb => hex ⟨c, hc, hw, hb⟩
    rw [bcFinal_none m φ' b cs hn, h]

theorem VolField.ext_entry {m : Mesh K} {φ φ' : VolField K V} (h : φ.On m) (h' : φ'.On m)
    (hi : φ.internal = φ'.internal) (he : ∀ b < m.nBoundaryFaces, φ.entry b = φ'.entry b) : φ = φ' := by
  have e1 : φ.bValue = φ'.bValue := list_ext_getD 0 _ h.val h'.val (fun b hb => congrArg BEntry.value (he b hb))
  have e2 : φ.bRefValue = φ'.bRefValue :=
    list_ext_getD 0 _ h.ref h'.ref (fun b hb => congrArg BEntry.refValue (he b hb))
  have e3 : φ.bVF = φ'.bVF := list_ext_getD 0 _ h.vf h'.vf (fun b hb => congrArg BEntry.fraction (he b hb))
  have e4 : φ.bRefGrad = φ'.bRefGrad :=
    list_ext_getD 0 _ h.grad h'.grad (fun b hb => congrArg BEntry.refGrad (he b hb))
  cases φ; cases φ'
  simp only [VolField.mk.injEq] at *
  exact ⟨hi, e1, e2, e3, e4⟩

/-- **C28**: for every list of conditions on patches of the mesh, correcting the boundary conditions always
returns, on every executor and schedule, one and the same field. Its cell values are unchanged; a boundary
face has the data prescribed by the last condition that stores into its patch, and keeps its data when there
is none; and correcting again changes nothing. -/
theorem C28_conditions (e : ExecKind) (m : Mesh K) (h : m.WF) (φ : VolField K V) (ho : φ.On m)
    (cs : List (VolumeBoundary V)) (hp : ∀ c ∈ cs, c.patch.end_ ≤ m.nBoundaryFaces) :
    ∃ φ', (∀ out, correctBoundaryConditions e m cs φ out ↔ out = .ok φ') ∧ φ'.On m ∧
      φ'.internal = φ.internal ∧
      (∀ b < m.nBoundaryFaces, (∀ c ∈ cs, c.kind.Writes → ¬ c.patch.Has b) → φ'.entry b = φ.entry b) ∧
      (∀ b < m.nBoundaryFaces, ∀ pre c post, cs = pre ++ c :: post → c.kind.Writes → c.patch.Has b →
        (∀ c' ∈ post, c'.kind.Writes → ¬ c'.patch.Has b) → Prescribes m φ b c.kind (φ'.entry b)) ∧
      ∀ out, correctBoundaryConditions e m cs φ' out ↔ out = .ok φ' := by
  obtain ⟨r, hr⟩ := correctAll_runs e m cs φ
  obtain ⟨φ', rfl, h1, h2, h3⟩ := correctAll_ok e m h cs φ ho hp r hr
  refine ⟨φ', ?_, h1, h2, ?_, ?_, ?_⟩
  · refine NR.iff_of_ok_runs ((correctAll_ok e m h cs φ ho hp).mono ?_) (correctAll_runs e m cs φ)
    rintro φ'' ⟨g1, g2, g3⟩
    exact VolField.ext_entry g1 h1 (g2.trans h2.symm) (fun b hb => (g3 b hb).trans (h3 b hb).symm)
  · intro b hb hn
    rw [h3 b hb, bcFinal_none m φ b cs hn]
  · intro b hb pre c post hcs hw hc hn
    rw [h3 b hb, hcs, bcFinal_last m φ b pre post c hw hc hn]
    cases hk : c.kind with
    | fixedValue v => exact ⟨rfl, rfl, rfl⟩
    | fixedGradient g => exact ⟨rfl, rfl, rfl⟩
    | extrapolated => exact ⟨rfl, rfl, rfl⟩
    | calculated => rw [hk] at hw; exact hw.elim
    | empty => rw [hk] at hw; exact hw.elim
  · refine NR.iff_of_ok_runs ((correctAll_ok e m h cs φ' h1 hp).mono ?_) (correctAll_runs e m cs φ')
    rintro φ'' ⟨g1, g2, g3⟩
    refine VolField.ext_entry g1 h1 g2 (fun b hb => ?_)
    rw [g3 b hb, bcFinal_idem m h2 b cs (h3 b hb), ← h3 b hb]

theorem ofOffsets_eq_ok {offs : List Nat} {p : Nat} {P : Patch} (h : Patch.ofOffsets offs p = .ok P) :
    P.patchID = p ∧ boundaryRange offs p = .ok (P.start_, P.end_) := by
  unfold Patch.ofOffsets at h
  rw [Res.bind_eq_ok] at h
  obtain ⟨s, hs, h⟩ := h
  rw [Res.bind_eq_ok] at h
  obtain ⟨t, ht, h⟩ := h
  simp only [Res.pure_eq, Res.ok.injEq] at h
  subst h
  refine ⟨rfl, ?_⟩
  unfold boundaryRange
  rw [hs, ht]; rfl

omit [Add V] [Zero V] in
theorem create_eq_ok {cast : Any → Res V} {offs : List Nat} {d : Dict} {p : Nat} {c : VolumeBoundary V}
    (h : VolumeBoundary.create cast offs d p = .ok c) : Patch.ofOffsets offs p = .ok c.patch := by
  unfold VolumeBoundary.create at h
  rw [Res.bind_eq_ok] at h
  obtain ⟨P, hP, h⟩ := h
  rw [Res.bind_eq_ok] at h
  obtain ⟨ty, hty, h⟩ := h
  rw [hP]
  split at h
  all_goals first
    | (rw [Res.bind_eq_ok] at h
       obtain ⟨a, ha, h⟩ := h
       rw [Res.bind_eq_ok] at h
       obtain ⟨v, hv, h⟩ := h
       simp only [Res.pure_eq, Res.ok.injEq] at h
       subst h; rfl)
    | (simp only [Res.pure_eq, Res.ok.injEq] at h
       subst h; rfl)
    | (simp at h)

/-- **C28, patch by patch**: with conditions built from dictionaries for different patches of a mesh with
valid offsets, every face of a patch has what its own condition prescribes, and faces of patches without a
condition keep their data. -/
theorem C28_patches (e : ExecKind) (m : Mesh K) (h : m.WF) (hv : ValidOffsets m.bnd.offset m.nBoundaryFaces)
    (φ : VolField K V) (ho : φ.On m) (cast : Any → Res V) (ps : List (Nat × Dict))
    (hd : (ps.map Prod.fst).Nodup) (cs : List (VolumeBoundary V))
    (hc : ps.mapM (fun p => VolumeBoundary.create cast m.bnd.offset p.2 p.1) = .ok cs) :
    ∃ φ', (∀ out, correctBoundaryConditions e m cs φ out ↔ out = .ok φ') ∧ φ'.internal = φ.internal ∧
      (∀ p ∈ ps, ∀ c s t, VolumeBoundary.create cast m.bnd.offset p.2 p.1 = .ok c →
        boundaryRange m.bnd.offset p.1 = .ok (s, t) → ∀ b, s ≤ b → b < t →
          Prescribes m φ b c.kind (φ'.entry b)) ∧
      ∀ q s t, q ∉ ps.map Prod.fst → boundaryRange m.bnd.offset q = .ok (s, t) → ∀ b, s ≤ b → b < t →
        φ'.entry b = φ.entry b := by
  have hcs : ∀ (ps : List (Nat × Dict)) cs,
      ps.mapM (fun p => VolumeBoundary.create cast m.bnd.offset p.2 p.1) = .ok cs →
      List.Forall₂ (fun p c => VolumeBoundary.create cast m.bnd.offset p.2 p.1 = .ok c) ps cs := by
    intro ps
    induction ps with
    | nil =>
      intro cs hcs
      simp only [List.mapM_nil, Res.pure_eq, Res.ok.injEq] at hcs
      subst hcs; exact List.Forall₂.nil
    | cons p ps ih =>
      intro cs hcs
      rw [List.mapM_cons, Res.bind_eq_ok] at hcs
      obtain ⟨c, hc1, hcs⟩ := hcs
      rw [Res.bind_eq_ok] at hcs
      obtain ⟨cs', hcs', hcs⟩ := hcs
      simp only [Res.pure_eq, Res.ok.injEq] at hcs
      subst hcs
      exact List.Forall₂.cons hc1 (ih cs' hcs')
  have hF := hcs ps cs hc
  have hpat : ∀ c ∈ cs, ∃ p ∈ ps, VolumeBoundary.create cast m.bnd.offset p.2 p.1 = .ok c := by
    intro c hc
    obtain ⟨i, hi, rfl⟩ := List.getElem_of_mem hc
    have hi' : i < ps.length := by rw [hF.length_eq]; exact hi
    exact ⟨ps[i], List.getElem_mem hi', hF.get hi' hi⟩
  have hrange : ∀ (p : Nat × Dict) c, VolumeBoundary.create cast m.bnd.offset p.2 p.1 = .ok c →
      c.patch.patchID = p.1 ∧ boundaryRange m.bnd.offset p.1 = .ok (c.patch.start_, c.patch.end_) :=
    fun p c hpc => ofOffsets_eq_ok (create_eq_ok hpc)
  have hpart := C12_partition m.bnd.offset m.nBoundaryFaces hv
  have hend : ∀ c ∈ cs, c.patch.end_ ≤ m.nBoundaryFaces := by
    intro c hc
    obtain ⟨p, _, hpc⟩ := hpat c hc
    exact (hpart.2 _ _ _ (hrange p c hpc).2).2
  -- two patches that share a face are the same
  have huniq : ∀ q q' s t s' t' b, boundaryRange m.bnd.offset q = .ok (s, t) →
      boundaryRange m.bnd.offset q' = .ok (s', t') → s ≤ b → b < t → s' ≤ b → b < t' → q = q' := by
    intro q q' s t s' t' b h1 h2 a1 a2 a3 a4
    have hb : b < m.nBoundaryFaces := by have := (hpart.2 _ _ _ h1).2; omega
    exact (hpart.1 b hb).unique ⟨s, t, h1, a1, a2⟩ ⟨s', t', h2, a3, a4⟩
  obtain ⟨φ', h1, h2, h3, h4, h5, h6⟩ := C28_conditions e m h φ ho cs hend
  refine ⟨φ', h1, h3, ?_, ?_⟩
  · intro p hp c s t hpc hr b hsb hbt
    obtain ⟨hid, hr'⟩ := hrange p c hpc
    rw [hr] at hr'
    simp only [Res.ok.injEq, Prod.mk.injEq] at hr'
    have hb : b < m.nBoundaryFaces := by have := (hpart.2 _ _ _ hr).2; omega
    have hhas : c.patch.Has b := ⟨by omega, by omega⟩
    obtain ⟨i, hi, rfl⟩ := List.getElem_of_mem hp
    have hi' : i < cs.length := by rw [← hF.length_eq]; exact hi
    have hci : cs[i] = c := by
      have := hF.get hi hi'
      simp only [List.get_eq_getElem] at this
      rw [hpc] at this
      exact (Res.ok.inj this).symm
    -- no other condition has the face
    have hother : ∀ j (hj : j < cs.length), cs[j].patch.Has b → j = i := by
      intro j hj hh
      have hj' : j < ps.length := by rw [hF.length_eq]; exact hj
      obtain ⟨_, hrj⟩ := hrange ps[j] cs[j] (hF.get hj' hj)
      have := huniq _ _ _ _ _ _ b hrj hr hh.1 hh.2 hsb hbt
      have hnd := List.pairwise_iff_getElem.1 hd
      by_contra hne
      rcases Nat.lt_or_gt_of_ne hne with hlt | hlt
      · exact hnd j i (by simpa using hj') (by simpa using hi) hlt (by simpa using this)
      · exact hnd i j (by simpa using hi) (by simpa using hj') hlt (by simpa using this.symm)
    by_cases hw : c.kind.Writes
    · refine h5 b hb (cs.take i) c (cs.drop (i + 1)) ?_ hw hhas ?_
      · rw [← hci, List.getElem_cons_drop, List.take_append_drop]
      · intro c' hc' _ hh
        obtain ⟨j, hj, rfl⟩ := List.getElem_of_mem hc'
        rw [List.getElem_drop] at hh
        rw [List.length_drop] at hj
        have := hother (i + 1 + j) (by omega) hh
        omega
    · have hun : φ'.entry b = φ.entry b := by
        refine h4 b hb (fun c' hc' hw' hh => ?_)
        obtain ⟨j, hj, rfl⟩ := List.getElem_of_mem hc'
        have := hother j hj hh
        subst this
        rw [hci] at hw'
        exact hw hw'
      cases hk : c.kind with
      | calculated => exact hun
      | empty => exact hun
      | _ => rw [hk] at hw; exact absurd trivial hw
  · intro q s t hq hr b hsb hbt
    have hb : b < m.nBoundaryFaces := by have := (hpart.2 _ _ _ hr).2; omega
    refine h4 b hb (fun c hc _ hh => ?_)
    obtain ⟨p, hp, hpc⟩ := hpat c hc
    have := huniq _ _ _ _ _ _ b hr (hrange p c hpc).2 hsb hbt hh.1 hh.2
    exact hq (List.mem_map.2 ⟨p, hp, this.symm⟩)

omit [Add V] [Zero V] in
/-- **C28, dictionaries**: a dictionary with a known type gives the condition of that type with the value it
holds; an unknown type stops the program. -/
theorem C28_create (cast : Any → Res V) (offs : List Nat) (n p : Nat) (hv : ValidOffsets offs n)
    (hp : p + 1 < offs.length) (d : Dict) (ty : String) (hty : AMap.find? d "type" = some (.str ty)) :
    (∀ a v, ty = "fixedValue" → AMap.find? d "fixedValue" = some a → cast a = .ok v →
      ∃ c, VolumeBoundary.create cast offs d p = .ok c ∧ c.kind = .fixedValue v) ∧
    (∀ a g, ty = "fixedGradient" → AMap.find? d "fixedGradient" = some a → cast a = .ok g →
      ∃ c, VolumeBoundary.create cast offs d p = .ok c ∧ c.kind = .fixedGradient g) ∧
    (ty = "extrapolated" → ∃ c, VolumeBoundary.create cast offs d p = .ok c ∧ c.kind = .extrapolated) ∧
    (ty = "calculated" → ∃ c, VolumeBoundary.create cast offs d p = .ok c ∧ c.kind = .calculated) ∧
    (ty = "empty" → ∃ c, VolumeBoundary.create cast offs d p = .ok c ∧ c.kind = .empty) ∧
    (ty ∉ ["fixedValue", "fixedGradient", "extrapolated", "calculated", "empty"] →
      VolumeBoundary.create cast offs d p = .abort) := by
  obtain ⟨s, t, hr, P, hP, -⟩ := C12_patch_partial offs n hv p hp
  have hget : Dict.get .str d "type" = .ok (.str ty) := by
    simp [Dict.get, Dict.index, AMap.at?, hty, anyCast, Any.ty]
  unfold VolumeBoundary.create
  rw [hP, hget]
  simp only [Res.ok_bind]
  refine ⟨?_, ?_, ?_, ?_, ?_, ?_⟩
  · rintro a v rfl ha hc
    refine ⟨⟨P, .fixedValue v⟩, ?_, rfl⟩
    simp [Dict.index, AMap.at?, ha, hc]
  · rintro a v rfl ha hc
    refine ⟨⟨P, .fixedGradient v⟩, ?_, rfl⟩
    simp [Dict.index, AMap.at?, ha, hc]
  · rintro rfl; exact ⟨⟨P, .extrapolated⟩, rfl, rfl⟩
  · rintro rfl; exact ⟨⟨P, .calculated⟩, rfl, rfl⟩
  · rintro rfl; exact ⟨⟨P, .empty⟩, rfl, rfl⟩
  · intro hn
    simp only [List.mem_cons, List.not_mem_nil, or_false, not_or] at hn
    split <;> rename_i heq <;> first | rfl | (simp only [Any.str.injEq] at heq; simp [heq] at hn)

end

section
variable [Field K] [AddCommGroup V] [Module K V]

/-- **C28, mixed form**: where a condition stores, the stored value is the mix of reference value and
reference gradient that the stored fraction asks for — the form the implicit operators use. -/
theorem C28_mixed (e : ExecKind) (m : Mesh K) (h : m.WF) (φ : VolField K V) (ho : φ.On m)
    (cs : List (VolumeBoundary V)) (hp : ∀ c ∈ cs, c.patch.end_ ≤ m.nBoundaryFaces) (φ' : VolField K V)
    (hr : correctBoundaryConditions e m cs φ (.ok φ')) (b : Nat) (hb : b < m.nBoundaryFaces)
    (c : VolumeBoundary V) (hc : c ∈ cs) (hw : c.kind.Writes) (hh : c.patch.Has b) :
    (φ'.entry b).value = (φ'.entry b).fraction • (φ'.entry b).refValue
      + (1 - (φ'.entry b).fraction) •
        (φ'.cell (m.fc b) + (1 / m.bnd.deltaCoeffs.getD b 0) • (φ'.entry b).refGrad) := by
  classical
  obtain ⟨ψ, he, h1, h2, h3⟩ := correctAll_ok e m h cs φ ho hp _ hr
  cases he
  have hx : ∃ c ∈ cs, c.kind.Writes ∧ φ'.entry b = bcData m φ b c.kind := by
    rw [h3 b hb]
    have : ∀ (l : List (VolumeBoundary V)) (x : BEntry K V),
        (l.foldl (fun x c => if c.kind.Writes ∧ c.patch.Has b then bcData m φ b c.kind else x) x = x ∧
          ∀ c ∈ l, ¬ (c.kind.Writes ∧ c.patch.Has b)) ∨
        ∃ c ∈ l, c.kind.Writes ∧
          l.foldl (fun x c => if c.kind.Writes ∧ c.patch.Has b then bcData m φ b c.kind else x) x
            = bcData m φ b c.kind := by
      intro l
      induction l with
      | nil => intro x; exact Or.inl ⟨rfl, by simp⟩
      | cons a l ih =>
        intro x
        rw [List.foldl_cons]
        rcases ih (if a.kind.Writes ∧ a.patch.Has b then bcData m φ b a.kind else x) with ⟨h1, h2⟩ | ⟨c, hc, hw, he⟩
        · by_cases ha : a.kind.Writes ∧ a.patch.Has b
          · right
            refine ⟨a, by simp, ha.1, ?_⟩
            rw [h1, if_pos ha]
          · left
            rw [h1, if_neg ha]
            refine ⟨rfl, fun c hc => ?_⟩
            rcases List.mem_cons.1 hc with rfl | hc
            · exact ha
            · exact h2 c hc
        · exact Or.inr ⟨c, by simp [hc], hw, he⟩
    rcases this cs (φ.entry b) with ⟨_, hn⟩ | hex
    · exact absurd ⟨hw, hh⟩ (hn c hc)
    · exact hex
  obtain ⟨c', -, hw', he⟩ := hx
  have hcell : φ'.cell (m.fc b) = φ.cell (m.fc b) := by simp [VolField.cell, h2]
  rw [he, hcell]
  cases hk : c'.kind with
  | fixedValue v => simp [bcData]
  | fixedGradient g => simp [bcData]
  | extrapolated => simp [bcData]
  | calculated => rw [hk] at hw'; exact hw'.elim
  | empty => rw [hk] at hw'; exact hw'.elim

end

/-! ### Surface fields -/

/-- **C28, surface fields**: a fixed value condition of a surface field sets the face values of its patch, both
in the boundary list and behind the internal faces, and nothing else; the other conditions change nothing. -/
theorem C28_surface (e : ExecKind) (m : Mesh K) (h : m.WF) (φ : SurfField V)
    (h1 : φ.internal.length = m.nFaces) (h2 : φ.bValue.length = m.nBoundaryFaces)
    (h3 : φ.bRefValue.length = m.nBoundaryFaces) (c : SurfaceBoundary V)
    (hp : c.patch.end_ ≤ m.nBoundaryFaces) :
    ∃ φ', (∀ out, c.correct e m φ out ↔ out = .ok φ') ∧
      (∀ b, c.patch.Has b → ∀ v, c.kind = .fixedValue v → φ'.bValue[b]? = some v ∧
        φ'.bRefValue[b]? = some v ∧ φ'.internal[m.nInternalFaces + b]? = some v) ∧
      (∀ b, (¬ c.patch.Has b ∨ ∀ v, c.kind ≠ .fixedValue v) → φ'.bValue[b]? = φ.bValue[b]? ∧
        φ'.bRefValue[b]? = φ.bRefValue[b]? ∧
        φ'.internal[m.nInternalFaces + b]? = φ.internal[m.nInternalFaces + b]?) ∧
      ∀ f < m.nInternalFaces, φ'.internal[f]? = φ.internal[f]? := by
  obtain ⟨p, k⟩ := c
  cases k with
  | calculated =>
    exact ⟨φ, fun out => Iff.rfl, fun b _ v hv => by simp at hv, fun b _ => ⟨rfl, rfl, rfl⟩, fun f _ => rfl⟩
  | empty =>
    exact ⟨φ, fun out => Iff.rfl, fun b _ v hv => by simp at hv, fun b _ => ⟨rfl, rfl, rfl⟩, fun f _ => rfl⟩
  | fixedValue v =>
    have hp' : p.end_ ≤ m.nBoundaryFaces := hp
    let ws : Nat → List (Wr BArr V) := fun i =>
      [⟨.refValue, i, v⟩, ⟨.value, i, v⟩, ⟨.internal, m.nInternalFaces + i, v⟩]
    have hL := launch_writes e p.range.1 p.range.2 (surfFixedValueBody m.nInternalFaces v) ws φ.arrs
      (fun i _ _ => rfl)
      (by
        intro i _ h5 w hw
        have h5' : i < p.end_ := h5
        have := h.faces
        simp only [ws, List.mem_cons, List.not_mem_nil, or_false] at hw
        rcases hw with rfl | rfl | rfl <;> simp only [SurfField.arrs, h1, h2, h3] <;> omega)
      (by intro i _ _; simp [ws, Wr.loc])
      (by
        intro i j _ _ _ _ hij w hw w' hw'
        simp only [ws, List.mem_cons, List.not_mem_nil, or_false] at hw hw'
        rcases hw with rfl | rfl | rfl <;> rcases hw' with rfl | rfl | rfl <;> simp [Wr.loc, hij])
    have hmem : ∀ w, w ∈ (List.range' p.range.1 (p.range.2 - p.range.1)).flatMap ws ↔
        ∃ i, p.Has i ∧ w ∈ ws i := by
      intro w
      rw [List.mem_flatMap]
      constructor
      · rintro ⟨i, hi, hw⟩
        rw [List.mem_range'_1] at hi
        simp only [Patch.range] at hi
        exact ⟨i, ⟨by omega, by omega⟩, hw⟩
      · rintro ⟨i, ⟨ha, hb⟩, hw⟩
        refine ⟨i, ?_, hw⟩
        rw [List.mem_range'_1]; simp only [Patch.range]; omega
    obtain ⟨r, hr⟩ := launch_runs e p.range.1 p.range.2 (surfFixedValueBody m.nInternalFaces v) φ.arrs
    obtain ⟨a, rfl, ha⟩ := hL r hr
    have hdet : ∀ out, launch e p.range.1 p.range.2 (surfFixedValueBody m.nInternalFaces v) φ.arrs out
        ↔ out = .ok a := by
      refine NR.iff_of_ok_runs (hL.mono ?_) ⟨_, hr⟩
      intro a' ha'
      funext x
      apply List.ext_getElem?
      intro j
      by_cases hw : ∃ w ∈ (List.range' p.range.1 (p.range.2 - p.range.1)).flatMap ws, w.loc = (x, j)
      · obtain ⟨w, hw, he⟩ := hw
        simp only [Wr.loc, Prod.mk.injEq] at he
        have e1 := ha.new w hw
        have e2 := ha'.new w hw
        rw [he.1, he.2] at e1 e2
        rw [e1, e2]
      · have hn : ∀ w ∈ (List.range' p.range.1 (p.range.2 - p.range.1)).flatMap ws, w.loc ≠ (x, j) :=
          fun w hw' he => hw ⟨w, hw', he⟩
        rw [ha.old x j hn, ha'.old x j hn]
    have hold : ∀ (x : BArr) (j : Nat),
        (∀ i, p.Has i → (x = .internal → j ≠ m.nInternalFaces + i) ∧ (x ≠ .internal → j ≠ i)) →
        (a x)[j]? = (φ.arrs x)[j]? := by
      intro x j hx
      refine ha.old x j (fun w hw he => ?_)
      obtain ⟨i, hi, hw⟩ := (hmem w).1 hw
      have := hx i hi
      simp only [ws, List.mem_cons, List.not_mem_nil, or_false] at hw
      rcases hw with rfl | rfl | rfl <;> simp only [Wr.loc, Prod.mk.injEq] at he <;>
        obtain ⟨rfl, rfl⟩ := he
      · exact this.2 (by simp) rfl
      · exact this.2 (by simp) rfl
      · exact this.1 rfl rfl
    refine ⟨⟨a .internal, a .value, a .refValue⟩, fun out => ?_, ?_, ?_, ?_⟩
    · exact Iff.trans (NR.bind_iff hdet out) Iff.rfl
    · intro b hb v' hv'
      cases hv'
      refine ⟨?_, ?_, ?_⟩
      · exact ha.new ⟨.value, b, v⟩ ((hmem _).2 ⟨b, hb, by simp [ws]⟩)
      · exact ha.new ⟨.refValue, b, v⟩ ((hmem _).2 ⟨b, hb, by simp [ws]⟩)
      · exact ha.new ⟨.internal, m.nInternalFaces + b, v⟩ ((hmem _).2 ⟨b, hb, by simp [ws]⟩)
    · rintro b (hb | hb)
      · refine ⟨hold .value b ?_, hold .refValue b ?_, hold .internal _ ?_⟩ <;> intro i hi <;>
          refine ⟨fun hx => ?_, fun hx => ?_⟩ <;> simp at hx <;> intro he <;> apply hb
        · exact he ▸ hi
        · exact he ▸ hi
        · have : b = i := by omega
          exact this ▸ hi
      · exact absurd rfl (hb v)
    · intro f hf
      refine hold .internal f (fun i _ => ⟨fun _ => by omega, fun hx => by simp at hx⟩)

/-! ### Concrete cases -/

/-- The hypotheses of the theorems hold for a mesh with two patches, a fixed value on one and a fixed
gradient on the other. -/
example : ∃ (ps : List (Nat × Dict)) (cs : List (VolumeBoundary ℚ)) (m : Mesh ℚ) (φ : VolField ℚ ℚ),
    m.WF ∧ ValidOffsets m.bnd.offset m.nBoundaryFaces ∧ φ.On m ∧ (ps.map Prod.fst).Nodup ∧ ps.length = 2 ∧
    ps.mapM (fun p => VolumeBoundary.create (fun a => match a with | .int i => .ok (i : ℚ) | _ => .throw .badAnyCast)
      m.bnd.offset p.2 p.1) = .ok cs := by
  let m : Mesh ℚ := { row3 with bnd := { row3.bnd with offset := [0, 1, 2] } }
  refine ⟨[(0, [("type", .str "fixedValue"), ("fixedValue", .int 3)]),
      (1, [("type", .str "fixedGradient"), ("fixedGradient", .int 5)])],
    [⟨⟨0, 0, 1⟩, .fixedValue (3 : Int)⟩, ⟨⟨1, 1, 2⟩, .fixedGradient (5 : Int)⟩], m,
    ⟨[1, 2, 3], [0, 0], [0, 0], [0, 0], [0, 0]⟩, ?_, ?_, ?_, by decide, rfl, rfl⟩
  · obtain ⟨a1, a2, a3, a4, a5, a6, a7, a8, a9, a10, a11, a12, a13, a14, a15, a16, a17, a18, a19⟩ := row3_wf
    exact ⟨a1, a2, a3, a4, a5, a6, a7, a8, a9, a10, a11, a12, a13, a14, a15, a16, a17, a18, a19⟩
  · exact ⟨by simp [m], by show [0, 1, 2].Pairwise (· ≤ ·); decide, rfl, rfl⟩
  · exact ⟨rfl, rfl, rfl, rfl, rfl⟩

end NeoFOAM
