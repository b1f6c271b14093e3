import Verif.Model.Gauss
import Verif.Spec.Fields
import Verif.Proofs.Elem
import Verif.Proofs.Sparsity

/-! # Gauss sums (proof side) -/
namespace NeoFOAM
open Finset
variable {K V : Type} [Field K] [AddCommGroup V] [Module K V]

theorem runsAdd_face {n : Nat} {own nei : Nat} {x : V} (ho : own < n) (hn : nei < n) :
    RunsAdd (fun _ : Unit => n) [Act.atomicAdd () own x, Act.atomicSub () nei x]
      (fun _ c => (if own = c then x else 0) - (if nei = c then x else 0)) := by
  refine ((RunsAdd.atomicAdd (n := fun _ : Unit => n) (a := ()) (v := x) ho).append
    (RunsAdd.atomicSub (a := ()) (v := x) hn)).congr ?_
  intro a i _
  simp only [single, true_and, eq_comm (a := i)]
  by_cases h : nei = i <;> simp [h, sub_eq_add_neg]

theorem runsAdd_facePlain {n : Nat} {t own nei : Nat} {x : V} (ho : own < n) (hn : nei < n) :
    RunsAdd (fun _ : Unit => n) (Act.plain t () own (· + x) ++ Act.plain t () nei (· - x))
      (fun _ c => (if own = c then x else 0) - (if nei = c then x else 0)) := by
  refine ((RunsAdd.plain (n := fun _ : Unit => n) (a := ()) (v := x) ho (fun _ => rfl)).append
    (RunsAdd.plain (a := ()) (v := -x) hn (fun _ => sub_eq_add_neg _ _))).congr ?_
  intro a i _
  simp only [single, true_and, eq_comm (a := i)]
  by_cases h : nei = i <;> simp [h, sub_eq_add_neg]

theorem runsAdd_bface {n : Nat} {own : Nat} {x : V} (ho : own < n) :
    RunsAdd (fun _ : Unit => n) [Act.atomicAdd () own x] (fun _ c => if own = c then x else 0) := by
  refine (RunsAdd.atomicAdd (n := fun _ : Unit => n) (a := ()) (v := x) ho).congr ?_
  intro a i _
  simp only [single, true_and, eq_comm (a := i)]

theorem runsAdd_bfacePlain {n t : Nat} {own : Nat} {x : V} (ho : own < n) :
    RunsAdd (fun _ : Unit => n) (Act.plain t () own (· + x)) (fun _ c => if own = c then x else 0) := by
  refine (RunsAdd.plain (n := fun _ : Unit => n) (a := ()) (v := x) ho (fun _ => rfl)).congr ?_
  intro a i _
  simp only [single, true_and, eq_comm (a := i)]

/-- What the internal faces contribute. -/
def Mesh.inFlow (m : Mesh K) (φ : Nat → V) (c : Nat) : V :=
  ∑ k ∈ range m.nInternalFaces, ((if m.own k = c then φ k else 0) - (if m.nbr k = c then φ k else 0))

theorem netOutflow_eq (m : Mesh K) (φ : Nat → V) (c : Nat) :
    m.netOutflow φ c = m.inFlow φ c
      + ∑ b ∈ range m.nBoundaryFaces, if m.fc b = c then φ (m.nInternalFaces + b) else 0 := by
  rw [Mesh.netOutflow, Mesh.inFlow, Finset.sum_sub_distrib]

theorem gaussInternal_ok {m : Mesh K} (h : m.WF) (e : ExecKind) (flux : Nat → Res V) (φ : Nat → V)
    (hfl : ∀ f < m.nInternalFaces, flux f = .ok (φ f)) (a : List V) (ha : a.length = m.nCells) :
    (launch1 e 0 m.nInternalFaces (gaussInternal m flux) a).Ok (fun a' => a'.length = m.nCells ∧
      ∀ c < m.nCells, a'.getD c 0 = a.getD c 0 + m.inFlow φ c) := by
  refine (launch1_ok e 0 m.nInternalFaces (gaussInternal m flux)
    (fun f => [Act.atomicAdd () (m.own f) (φ f), Act.atomicSub () (m.nbr f) (φ f)])
    (fun f c => (if m.own f = c then φ f else 0) - (if m.nbr f = c then φ f else 0)) a ?_ ?_ ?_).mono ?_
  · intro f _ hf
    simp [gaussInternal, hfl f hf, h.rd_owner_int hf, h.rd_nbr hf]
  · right
    apply threadsCommute_addSub
    intro i x hx
    simp only [List.mem_cons, List.not_mem_nil, or_false] at hx
    rcases hx with rfl | rfl
    · exact Act.isAddSub_add _ _ _
    · exact Act.isAddSub_sub _ _ _
  · intro f _ hf
    exact runsAdd_face (by rw [ha]; exact h.own_lt_int hf) (by rw [ha]; exact h.nbr_lt f hf)
  · rintro a' ⟨h1, h2⟩
    refine ⟨h1.trans ha, fun c hc => ?_⟩
    rw [h2 c (by omega)]
    simp [Mesh.inFlow]

theorem gaussBoundary_ok {m : Mesh K} (h : m.WF) (e : ExecKind) (flux : Nat → Res V) (φ : Nat → V)
    (hfl : ∀ b < m.nBoundaryFaces, flux (m.nInternalFaces + b) = .ok (φ (m.nInternalFaces + b)))
    (a : List V) (ha : a.length = m.nCells) (stop : Nat) (hs : stop = m.nInternalFaces + m.nBoundaryFaces) :
    (launch1 e m.nInternalFaces stop (gaussBoundary m flux) a).Ok (fun a' => a'.length = m.nCells ∧
      ∀ c < m.nCells, a'.getD c 0 = a.getD c 0 + ∑ b ∈ range m.nBoundaryFaces,
        if m.fc b = c then φ (m.nInternalFaces + b) else 0) := by
  subst hs
  refine (launch1_ok e m.nInternalFaces _ (gaussBoundary m flux)
    (fun f => [Act.atomicAdd () (m.fc (f - m.nInternalFaces)) (φ f)])
    (fun f c => if m.fc (f - m.nInternalFaces) = c then φ f else 0) a ?_ ?_ ?_).mono ?_
  · intro f h1 hf
    have hb : f - m.nInternalFaces < m.nBoundaryFaces := by omega
    have := hfl _ hb
    rw [show m.nInternalFaces + (f - m.nInternalFaces) = f by omega] at this
    simp [gaussBoundary, h.rd_fc hb, this]
  · right
    apply threadsCommute_addSub
    intro i x hx
    simp only [List.mem_cons, List.not_mem_nil, or_false] at hx
    subst hx
    exact Act.isAddSub_add _ _ _
  · intro f _ hf
    exact runsAdd_bface (by rw [ha]; exact h.fc_lt _ (by omega))
  · rintro a' ⟨h1, h2⟩
    refine ⟨h1.trans ha, fun c hc => ?_⟩
    rw [h2 c (by omega)]
    simp

theorem gaussInternalPlain_ok {m : Mesh K} (h : m.WF) (flux : Nat → Res V) (φ : Nat → V)
    (hfl : ∀ f < m.nInternalFaces, flux f = .ok (φ f)) (a : List V) (ha : a.length = m.nCells) :
    (launch1 .serial 0 m.nInternalFaces (gaussInternalPlain m flux) a).Ok (fun a' => a'.length = m.nCells ∧
      ∀ c < m.nCells, a'.getD c 0 = a.getD c 0 + m.inFlow φ c) := by
  refine (launch1_ok .serial 0 m.nInternalFaces (gaussInternalPlain m flux)
    (fun f => Act.plain f () (m.own f) (· + φ f) ++ Act.plain f () (m.nbr f) (· - φ f))
    (fun f c => (if m.own f = c then φ f else 0) - (if m.nbr f = c then φ f else 0)) a ?_ (Or.inl rfl) ?_).mono ?_
  · intro f _ hf
    simp [gaussInternalPlain, hfl f hf, h.rd_owner_int hf, h.rd_nbr hf]
  · intro f _ hf
    exact runsAdd_facePlain (by rw [ha]; exact h.own_lt_int hf) (by rw [ha]; exact h.nbr_lt f hf)
  · rintro a' ⟨h1, h2⟩
    refine ⟨h1.trans ha, fun c hc => ?_⟩
    rw [h2 c (by omega)]
    simp [Mesh.inFlow]

theorem gaussBoundaryPlain_ok {m : Mesh K} (h : m.WF) (flux : Nat → Res V) (φ : Nat → V)
    (hfl : ∀ b < m.nBoundaryFaces, flux (m.nInternalFaces + b) = .ok (φ (m.nInternalFaces + b)))
    (a : List V) (ha : a.length = m.nCells) :
    (launch1 .serial m.nInternalFaces (m.nInternalFaces + m.nBoundaryFaces) (gaussBoundaryPlain m flux) a).Ok
      (fun a' => a'.length = m.nCells ∧
      ∀ c < m.nCells, a'.getD c 0 = a.getD c 0 + ∑ b ∈ range m.nBoundaryFaces,
        if m.fc b = c then φ (m.nInternalFaces + b) else 0) := by
  refine (launch1_ok .serial m.nInternalFaces _ (gaussBoundaryPlain m flux)
    (fun f => Act.plain f () (m.fc (f - m.nInternalFaces)) (· + φ f))
    (fun f c => if m.fc (f - m.nInternalFaces) = c then φ f else 0) a ?_ (Or.inl rfl) ?_).mono ?_
  · intro f h1 hf
    have hb : f - m.nInternalFaces < m.nBoundaryFaces := by omega
    have := hfl _ hb
    rw [show m.nInternalFaces + (f - m.nInternalFaces) = f by omega] at this
    simp [gaussBoundaryPlain, h.rd_fc hb, this]
  · intro f _ hf
    exact runsAdd_bfacePlain (by rw [ha]; exact h.fc_lt _ (by omega))
  · rintro a' ⟨h1, h2⟩
    refine ⟨h1.trans ha, fun c hc => ?_⟩
    rw [h2 c (by omega)]
    simp

theorem scale_ok (e : ExecKind) (n : Nat) (body : Nat → Res (V → V)) (g : Nat → K) (a : List V)
    (hb : ∀ c < n, body c = .ok fun x => g c • x) (ha : a.length = n) :
    (elemKernel e 0 n body a).Ok (fun r => r.length = n ∧ ∀ c < n, r.getD c 0 = g c • a.getD c 0) := by
  refine (elemKernel_ok e n body (fun c x => g c • x) a ha.symm hb).mono ?_
  rintro r rfl
  refine ⟨by simp [ha], fun c hc => ?_⟩
  have hc' : c < a.length := by omega
  simp [List.getD, List.getElem?_mapIdx, List.getElem?_eq_getElem hc']

theorem scaleBody_ok {m : Mesh K} (h : m.WF) {s : Coeff K} {v : Nat → K} (hs : s.On m.nCells v) :
    ∀ c < m.nCells, scaleBody (V := V) s m.cellVolumes c = .ok fun x => (v c / m.vol c) • x := by
  intro c hc
  have : rd m.cellVolumes c = .ok (m.vol c) := rd_getD 0 (by rw [h.volLen]; exact hc)
  simp [scaleBody, hs c hc, this]

/-- The two sums followed by the scaling, for any of the callers. -/
theorem gauss_ok {m : Mesh K} (h : m.WF) (e : ExecKind) (flux : Nat → Res V) (φ : Nat → V)
    (hfl : ∀ f < m.nFaces, flux f = .ok (φ f)) (a : List V) (ha : a.length = m.nCells) (stop : Nat)
    (hs : stop = m.nInternalFaces + m.nBoundaryFaces) (body : Nat → Res (V → V)) (g : Nat → K)
    (hb : ∀ c < m.nCells, body c = .ok fun x => g c • x) (n : Nat) (hn : n = m.nCells) (out : Res (List V)) :
    (do
      let r ← launch1 e 0 m.nInternalFaces (gaussInternal m flux) a
      let r ← launch1 e m.nInternalFaces stop (gaussBoundary m flux) r
      elemKernel e 0 n body r : NR (List V)) out ↔
    out = .ok ((List.range m.nCells).map fun c => g c • (a.getD c 0 + m.netOutflow φ c)) := by
  subst hn
  have hfa := h.faces
  refine NR.iff_of_ok_runs ?_ ?_ out
  · refine NR.Ok.bind (gaussInternal_ok h e flux φ (fun f hf => hfl f (by omega)) a ha) ?_
    rintro r ⟨r1, r2⟩
    refine NR.Ok.bind (gaussBoundary_ok h e flux φ (fun b hb => hfl _ (by omega)) r r1 stop hs) ?_
    rintro q ⟨q1, q2⟩
    refine (scale_ok e m.nCells body g q hb q1).mono ?_
    rintro z ⟨z1, z2⟩
    refine list_eq_range_map z1 (fun c hc => ?_)
    rw [z2 c hc, q2 c hc, r2 c hc, netOutflow_eq]
    rw [add_assoc]
  · exact NR.Runs.bind (launch1_runs _ _ _ _ _) fun _ _ => NR.Runs.bind (launch1_runs _ _ _ _ _) fun _ _ =>
      elemKernel_runs _ _ _ _ _

theorem gaussPlain_ok {m : Mesh K} (h : m.WF) (flux : Nat → Res V) (φ : Nat → V)
    (hfl : ∀ f < m.nFaces, flux f = .ok (φ f)) (a : List V) (ha : a.length = m.nCells)
    (body : Nat → Res (V → V)) (g : Nat → K)
    (hb : ∀ c < m.nCells, body c = .ok fun x => g c • x) (n : Nat) (hn : n = m.nCells) (out : Res (List V)) :
    (do
      let r ← launch1 .serial 0 m.nInternalFaces (gaussInternalPlain m flux) a
      let r ← launch1 .serial m.nInternalFaces (m.nInternalFaces + m.nBoundaryFaces) (gaussBoundaryPlain m flux) r
      elemKernel .serial 0 n body r : NR (List V)) out ↔
    out = .ok ((List.range m.nCells).map fun c => g c • (a.getD c 0 + m.netOutflow φ c)) := by
  subst hn
  have hfa := h.faces
  refine NR.iff_of_ok_runs ?_ ?_ out
  · refine NR.Ok.bind (gaussInternalPlain_ok h flux φ (fun f hf => hfl f (by omega)) a ha) ?_
    rintro r ⟨r1, r2⟩
    refine NR.Ok.bind (gaussBoundaryPlain_ok h flux φ (fun b hb => hfl _ (by omega)) r r1) ?_
    rintro q ⟨q1, q2⟩
    refine (scale_ok .serial m.nCells body g q hb q1).mono ?_
    rintro z ⟨z1, z2⟩
    refine list_eq_range_map z1 (fun c hc => ?_)
    rw [z2 c hc, q2 c hc, r2 c hc, netOutflow_eq]
    rw [add_assoc]
  · exact NR.Runs.bind (launch1_runs _ _ _ _ _) fun _ _ => NR.Runs.bind (launch1_runs _ _ _ _ _) fun _ _ =>
      elemKernel_runs _ _ _ _ _

theorem computeDiv_det {m : Mesh K} (h : m.WF) (e : ExecKind) {faceFlux : List K} {phiF : List V}
    (hf : faceFlux.length = m.nFaces) (hp : phiF.length = m.nFaces) {s : Coeff K} {v : Nat → K}
    (hs : s.On m.nCells v) (a : List V) (ha : a.length = m.nCells) (out : Res (List V)) :
    computeDiv e m faceFlux phiF s a out ↔ out = .ok ((List.range m.nCells).map fun c =>
      (v c / m.vol c) • (a.getD c 0 + m.netOutflow (fun f => ix faceFlux f • ix phiF f) c)) := by
  have hfl : ∀ f < m.nFaces, (do
      let a ← rd faceFlux f
      let b ← rd phiF f
      return a • b : Res V) = .ok (ix faceFlux f • ix phiF f) := by
    intro f hlt
    have r1 : rd faceFlux f = .ok (ix faceFlux f) := rd_getD 0 (by omega)
    have r2 : rd phiF f = .ok (ix phiF f) := rd_getD 0 (by omega)
    simp [r1, r2]
  cases e with
  | serial =>
    exact gaussPlain_ok h _ _ hfl a ha _ _ (scaleBody_ok h hs) _ h.volLen out
  | parallel =>
    exact gauss_ok h .parallel _ _ hfl a ha _ rfl _ _ (scaleBody_ok h hs) _ h.volLen out

/-- Sums over all cells of what leaves each cell: the internal faces cancel. -/
theorem sum_netOutflow {G : Type} [AddCommGroup G] {m : Mesh K} (h : m.WF) (φ : Nat → G) :
    ∑ c ∈ range m.nCells, m.netOutflow φ c = ∑ b ∈ range m.nBoundaryFaces, φ (m.nInternalFaces + b) := by
  have key : ∀ (n : Nat) (cell : Nat → Nat) (ψ : Nat → G), (∀ f < n, cell f < m.nCells) →
      ∑ c ∈ range m.nCells, ∑ f ∈ range n, (if cell f = c then ψ f else 0) = ∑ f ∈ range n, ψ f := by
    intro n cell ψ hc
    rw [Finset.sum_comm]
    refine Finset.sum_congr rfl (fun f hf => ?_)
    rw [Finset.sum_ite_eq]
    simp [hc f (mem_range.1 hf)]
  unfold Mesh.netOutflow
  rw [Finset.sum_add_distrib, Finset.sum_sub_distrib, key _ _ _ (fun f hf => h.own_lt_int hf),
    key _ _ _ h.nbr_lt, sub_self, zero_add,
    key m.nBoundaryFaces m.fc (fun b => φ (m.nInternalFaces + b)) h.fc_lt]

theorem netOutflow_congr {G : Type} [AddCommGroup G] {m : Mesh K} (h : m.WF) {φ ψ : Nat → G}
    (e : ∀ f < m.nFaces, φ f = ψ f) (c : Nat) : m.netOutflow φ c = m.netOutflow ψ c := by
  have hfa := h.faces
  unfold Mesh.netOutflow
  congr 1
  · congr 1 <;>
    · refine Finset.sum_congr rfl (fun f hf => ?_)
      rw [e f (by have := mem_range.1 hf; omega)]
  · refine Finset.sum_congr rfl (fun f hf => ?_)
    rw [e _ (by have := mem_range.1 hf; omega)]

end NeoFOAM
