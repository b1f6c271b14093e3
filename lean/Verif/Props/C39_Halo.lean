import Verif.Proofs.HaloProgress

/-!
# C39 – halo exchange

Proved for every number of ranks, every family of maps that fit together, every program of exchanges that are started and finalised
one after the other (the same name or different names), every interleaving of the ranks and of MPI, with and without buffering of
messages. Missing from the property: several exchanges open at the same time, which is false (`C39_violation_two_open`).
-/
namespace NeoFOAM

/-- **C39 (no undefined behaviour)** – In every state that can occur, every step of a rank or of MPI, and every call of `isComplete`
on an open exchange, succeeds: no access out of range, no use of freed memory, no abort. -/
theorem C39_safe_partial {H : Halo} (hF : H.Fits) {n : Nat} {w : HWorld} (h : H.Run n w) :
    (∀ sync res, HStep H sync w res → ∃ w', res = .ok w') ∧
    ∀ r < H.P, (w r).opened = true → ∃ f w', H.poll w r = .ok (f, w') := by
  have hi := h.inv hF
  refine ⟨fun sync res hs => ?_, fun r hr ho => ?_⟩
  · obtain ⟨w', e, -⟩ := hi.step hF hs; exact ⟨w', e⟩
  · obtain ⟨f, w', e, -⟩ := Halo.step_poll hF hi hr ho; exact ⟨f, w', e⟩

/-- **C39 (values)** – The fields of every rank at every point of every run are those of the bulk-synchronous specification: a
finalised exchange has put exactly the sender's mapped values at the receive-mapped positions. -/
theorem C39_values_partial {H : Halo} (hF : H.Fits) {n : Nat} {w : HWorld} (h : H.Run n w) {r : Nat} (hr : r < H.P) :
    (w r).pc ≤ H.N ∧ ((w r).opened = false → (w r).fields = H.state (w r).pc r) ∧
      ((w r).opened = true → (w r).fields = (H.ex (w r).pc).mid r (H.state (w r).pc r)) := by
  have hR := (h.inv hF).rank r hr
  have h1 := hR.pcLe
  have h2 := hR.fields
  refine ⟨?_, fun ho => ?_, fun ho => ?_⟩
  · unfold HRank.count at h1; split at h1 <;> omega
  · rw [ho] at h2; simpa using h2
  · rw [ho] at h2; simpa using h2

/-- **C39 (isComplete)** – `isComplete` on the open exchange says yes exactly when every MPI operation of the rank is complete, and
changes neither fields nor operations. -/
theorem C39_isComplete_partial {H : Halo} (hF : H.Fits) {n : Nat} {w w' : HWorld} (h : H.Run n w) {r : Nat} (hr : r < H.P) {f : Bool}
    (ho : (w r).opened = true) (hp : H.poll w r = .ok (f, w')) :
    (f = true ↔ ∀ o ∈ (w r).proc.ops, o.done = true) ∧ ∀ x, (w' x).fields = (w x).fields ∧ (w' x).proc.ops = (w x).proc.ops := by
  have hi := h.inv hF
  obtain ⟨f', w'', e, -, h1, h2⟩ := Halo.step_poll hF hi hr ho
  rw [hp] at e
  cases e
  refine ⟨h1.trans ⟨fun g o hm => ?_, fun g i κ o _ hio => g o (List.mem_of_getElem? hio)⟩, fun x => ⟨(h2 x).2.2.2, (h2 x).1⟩⟩
  obtain ⟨i, hl, e⟩ := List.mem_iff_getElem.1 hm
  have hio : (w r).proc.ops[i]? = some o := by rw [List.getElem?_eq_getElem hl, e]
  obtain ⟨κ, hk⟩ := Halo.key_at (hi.rank r hr) hio
  exact g i κ o hk hio

/-- **C39 (termination)** – However ranks and MPI are interleaved, at most `P·N·(2+6P)` steps can be taken (polls not counted), and as
long as a rank has not finished, a step is possible, even if MPI buffers nothing: no exchange deadlocks. -/
theorem C39_terminates_partial {H : Halo} (hF : H.Fits) {n : Nat} {w : HWorld} (h : H.Run n w) :
    n ≤ H.P * (H.N * (2 + 6 * H.P)) ∧ ((∃ r < H.P, (w r).pc < H.N) → ∃ w', HStep H true w (.ok w')) :=
  ⟨le_trans (h.events hF) ((h.inv hF).bound hF), (h.inv hF).progress hF⟩

/-- **C39 (result)** – When nothing more can happen, every rank has done all exchanges and has the values of the specification. -/
theorem C39_result_partial {H : Halo} (hF : H.Fits) {n : Nat} {w : HWorld} (h : H.Run n w) (hstuck : ∀ w', ¬ HStep H true w (.ok w'))
    {r : Nat} (hr : r < H.P) : (w r).pc = H.N ∧ (w r).opened = false ∧ (w r).fields = H.state H.N r := by
  have hv := C39_values_partial hF h hr
  have hpc : (w r).pc = H.N := by
    by_contra hne
    obtain ⟨w', hs⟩ := (C39_terminates_partial hF h).2 ⟨r, hr, by omega⟩
    exact hstuck w' hs
  have ho : (w r).opened = false := by
    have := ((h.inv hF).rank r hr).pcLe
    unfold HRank.count at this
    cases hx : (w r).opened with
    | false => rfl
    | true => rw [hx] at this; simp at this; omega
  exact ⟨hpc, ho, by rw [hv.2.1 ho, hpc]⟩

/-! ### What the specification says about single positions -/

theorem writeAt_not_mem {f : List Elem} {pos : List Nat} {vals : List Elem} {i : Nat} (h : i ∉ pos) : (writeAt f pos vals)[i]? = f[i]? := by
  unfold writeAt
  induction pos generalizing f vals with
  | nil => rfl
  | cons p pos ih =>
    cases vals with
    | nil => rfl
    | cons v vals =>
      rw [List.zip_cons_cons, List.foldl_cons, ih (fun hm => h (List.mem_cons_of_mem _ hm)), List.getElem?_set_ne]
      rintro rfl
      exact h (List.mem_cons_self ..)

theorem writeAt_mem {f : List Elem} {pos : List Nat} {vals : List Elem} (hl : vals.length = pos.length) (hnd : pos.Nodup) {d i : Nat}
    (hd : pos[d]? = some i) (hi : i < f.length) : (writeAt f pos vals)[i]? = vals[d]? := by
  induction pos generalizing f vals d with
  | nil => simp at hd
  | cons p pos ih =>
    cases vals with
    | nil => simp at hl
    | cons v vals =>
      rw [List.nodup_cons] at hnd
      have e : writeAt f (p :: pos) (v :: vals) = writeAt (f.set p v) pos vals := rfl
      rw [e]
      cases d with
      | zero =>
        simp at hd
        subst hd
        rw [writeAt_not_mem hnd.1]
        simp [hi]
      | succ d =>
        rw [ih (by simpa using hl) hnd.2 (by simpa using hd) (by simpa using hi)]
        simp

/-- **C39 (positions)** – What finalising writes: with no position received twice, element `d` from rank `s` is at position `d` of the
receive map for `s`, and every other position is unchanged. -/
theorem C39_positions_partial (H : Halo) (r : Nat) (vals : Nat → List Elem) (f : List Elem)
    (hlen : ∀ s < H.P, (vals s).length = ((H.recvMap r).getD s []).length)
    (hnd : ∀ s < H.P, ((H.recvMap r).getD s []).Nodup)
    (hdis : ∀ s < H.P, ∀ s' < H.P, s ≠ s' → ∀ i ∈ (H.recvMap r).getD s [], i ∉ (H.recvMap r).getD s' []) :
    (∀ s < H.P, ∀ d i : Nat, ((H.recvMap r).getD s [])[d]? = some i → i < f.length → (H.scatter r vals f)[i]? = (vals s)[d]?) ∧
    ∀ i : Nat, (∀ s < H.P, i ∉ (H.recvMap r).getD s []) → (H.scatter r vals f)[i]? = f[i]? := by
  have key : ∀ n ≤ H.P,
      (∀ s < n, ∀ d i : Nat, ((H.recvMap r).getD s [])[d]? = some i → i < f.length →
        ((List.range n).foldl (fun f s => writeAt f ((H.recvMap r).getD s []) (vals s)) f)[i]? = (vals s)[d]?) ∧
      (∀ i : Nat, (∀ s < n, i ∉ (H.recvMap r).getD s []) →
        ((List.range n).foldl (fun f s => writeAt f ((H.recvMap r).getD s []) (vals s)) f)[i]? = f[i]?) ∧
      ((List.range n).foldl (fun f s => writeAt f ((H.recvMap r).getD s []) (vals s)) f).length = f.length := by
    intro n
    induction n with
    | zero => intro _; exact ⟨by omega, by simp, by simp⟩
    | succ n ih =>
      intro hn
      obtain ⟨h1, h2, h3⟩ := ih (by omega)
      rw [List.range_succ, List.foldl_append]
      simp only [List.foldl_cons, List.foldl_nil]
      refine ⟨?_, ?_, by rw [length_writeAt]; exact h3⟩
      · intro s hs d i hd hi
        by_cases e : s = n
        · subst e
          exact writeAt_mem (hlen s (by omega)) (hnd s (by omega)) hd (by rw [h3]; exact hi)
        · rw [writeAt_not_mem (hdis s (by omega) n (by omega) e i (List.mem_of_getElem? hd))]
          exact h1 s (by omega) d i hd hi
      · intro i hi
        rw [writeAt_not_mem (hi n (by omega))]
        exact h2 i fun s hs => hi s (by omega)
  obtain ⟨h1, h2, -⟩ := key H.P (le_refl _)
  exact ⟨h1, h2⟩

/-! ### Where the property is false -/

/-- What `startComm` does to the table and the buffer vector is what acquiring a buffer does. -/
theorem startComm_comm {hash : String → Nat} {pr pr' : Proc} {t : Nat} {f : List Elem} {name : String} (h : pr.startComm hash t f name = .ok pr') :
    ∃ c p, pr.comm.acquire name = .ok (c, p) ∧ pr'.comm.cap = c.cap ∧ pr'.comm.gen = c.gen ∧ pr'.comm.table = c.table := by
  unfold Proc.startComm at h
  rw [Res.bind_eq_ok] at h
  obtain ⟨⟨c, p⟩, h1, h⟩ := h
  simp only at h
  refine ⟨c, p, h1, ?_⟩
  rw [Res.bind_eq_ok] at h; obtain ⟨b, -, h⟩ := h
  rw [Res.bind_eq_ok] at h; obtain ⟨b', -, h⟩ := h
  rw [Res.bind_eq_ok] at h; obtain ⟨s, -, h⟩ := h
  rw [Res.bind_eq_ok] at h; obtain ⟨⟨s', o'⟩, -, h⟩ := h
  simp only at h
  rw [Res.bind_eq_ok] at h; obtain ⟨⟨s'', o''⟩, -, h⟩ := h
  simp only at h
  rw [Res.bind_eq_ok] at h; obtain ⟨c', hc, h⟩ := h
  simp only [Res.pure_eq, Res.ok.injEq] at h
  subst h
  unfold Communicator.assign at hc
  split at hc
  · rw [Res.bind_eq_ok] at hc; obtain ⟨l, -, hc⟩ := hc
    simp only [Res.pure_eq, Res.ok.injEq] at hc
    subst hc
    exact ⟨rfl, rfl, rfl⟩
  · cases hc

/-- **C39 (violation)** – Two open exchanges: on a new communicator, once a second exchange is started while the first is open, the
pointer to the buffer of the first dangles, and `finaliseComm` and `isComplete` of the first are undefined, whatever MPI has done in the
meantime. -/
theorem C39_violation_two_open {hash : String → Nat} {n : Nat} {sm rm : List (List Nat)} (hsm : sm.length = n) (hrm : rm.length = n)
    {t t' : Nat} (ht : 0 < t) {f f' : List Elem} (hf : ∀ s < n, ∀ i ∈ sm.getD s [], i < f.length ∧ (f.getD i []).length = t)
    {a b : String} (hab : a ≠ b) {pr1 pr2 : Proc} (h1 : Proc.startComm hash ⟨Communicator.create n sm rm, []⟩ t f a = .ok pr1)
    {ops : List MpiOp} (h2 : Proc.startComm hash ⟨pr1.comm, ops⟩ t' f' b = .ok pr2) (ops' : List MpiOp) (g : List Elem) :
    Proc.finaliseComm ⟨pr2.comm, ops'⟩ t g a = .ub ∧ Proc.isComplete ⟨pr2.comm, ops'⟩ a = .ub := by
  have hidle : (Communicator.create n sm rm).Idle hash := ⟨fun name p => by simp [Communicator.create, AMap.find?], .inl ⟨rfl, rfl⟩⟩
  obtain ⟨c, bf, e, hc, hb, -⟩ := startComm_ok (pr := ⟨Communicator.create n sm rm, []⟩) ⟨rfl, rfl, rfl⟩ hsm hrm hidle ht a hf
  rw [e] at h1
  cases h1
  have hcap : c.cap = 1 := by
    obtain ⟨c0, p0, ha, hcap, -⟩ := startComm_comm e
    rw [hcap]
    unfold Communicator.acquire at ha
    have : (Communicator.create n sm rm).findDuplexBuffer = none := rfl
    rw [this] at ha
    simp only [Res.bind_eq_ok] at ha
    obtain ⟨⟨c1, p1⟩, hn, ha⟩ := ha
    simp only [Res.pure_eq, Res.ok.injEq, Prod.mk.injEq] at ha
    unfold Communicator.createNewDuplexBuffer at hn
    simp only [Res.bind_eq_ok] at hn
    obtain ⟨s, -, r, -, b', -, hn⟩ := hn
    simp only [Res.pure_eq, Res.ok.injEq, Prod.mk.injEq] at hn
    rw [← ha.1, ← hn.1]
    rfl
  obtain ⟨c2, p2, ha, -, hgen, htab⟩ := startComm_comm h2
  have hini : bf.isCommInit = true := by
    have h1 := hb.send.name
    have h2 := hb.recv.name
    unfold FullBuf.isCommInit
    cases hx : bf.send.isCommInit <;> cases hy : bf.recv.isCommInit <;> simp_all
  have hfind : c.findDuplexBuffer = none := by
    simp [Communicator.findDuplexBuffer, hb.bufs, List.findIdx?_cons, hini]
  have hfacts : c2.gen = c.gen + 1 ∧ c2.table.find? a = some (some ⟨c.gen, 0⟩) := by
    unfold Communicator.acquire at ha
    simp only [hfind] at ha
    simp only [Res.bind_eq_ok] at ha
    obtain ⟨⟨c1, p1⟩, hn, ha⟩ := ha
    simp only [Res.pure_eq, Res.ok.injEq, Prod.mk.injEq] at ha
    unfold Communicator.createNewDuplexBuffer at hn
    simp only [Res.bind_eq_ok] at hn
    obtain ⟨s, -, r, -, b', -, hn⟩ := hn
    simp only [Res.pure_eq, Res.ok.injEq, Prod.mk.injEq] at hn
    rw [← ha.1, ← hn.1]
    refine ⟨by simp [hb.bufs, hcap], ?_⟩
    simp only [AMap.find?_assign, if_neg hab]
    exact hb.entry
  have hl : pr2.comm.lookup a = .ok ⟨c.gen, 0⟩ := by
    unfold Communicator.lookup
    rw [htab, hfacts.2]
  have hd : pr2.comm.deref ⟨c.gen, 0⟩ = .ub := by
    unfold Communicator.deref
    rw [if_neg (by rw [hgen, hfacts.1]; simp)]
  constructor
  · unfold Proc.finaliseComm
    simp only [hl, Res.ok_bind, hd]
    rfl
  · unfold Proc.isComplete
    simp only [hl, Res.ok_bind, hd]
    rfl

/-- **C39 (violation)** – `isComplete` and `finaliseComm` of an exchange that has been finalised, or was never started, are undefined
in a release build. -/
theorem C39_violation_closed {pr pr' : Proc} {t : Nat} {f f' : List Elem} {name : String} :
    (pr.finaliseComm t f name = .ok (some (f', pr')) → pr'.isComplete name = .ub ∧ ∀ g, pr'.finaliseComm t g name = .ub) ∧
    (pr.comm.table.find? name = none → pr.isComplete name = .ub ∧ ∀ g, pr.finaliseComm t g name = .ub) := by
  have base : ∀ q : Proc, q.comm.lookup name = .ub → q.isComplete name = .ub ∧ ∀ g, q.finaliseComm t g name = .ub := by
    intro q hq
    refine ⟨?_, fun g => ?_⟩
    · unfold Proc.isComplete; rw [hq]; rfl
    · unfold Proc.finaliseComm; rw [hq]; rfl
  refine ⟨fun h => base _ ?_, fun h => base _ ?_⟩
  · unfold Proc.finaliseComm at h
    rw [Res.bind_eq_ok] at h; obtain ⟨p, -, h⟩ := h
    rw [Res.bind_eq_ok] at h; obtain ⟨b, -, h⟩ := h
    rw [Res.bind_eq_ok] at h; obtain ⟨⟨fl, b'⟩, -, h⟩ := h
    simp only at h
    split at h
    · rw [Res.bind_eq_ok] at h; obtain ⟨fd, -, h⟩ := h
      rw [Res.bind_eq_ok] at h; obtain ⟨c, -, h⟩ := h
      simp only [Res.pure_eq, Res.ok.injEq, Option.some.injEq, Prod.mk.injEq] at h
      rw [← h.2]
      simp [Communicator.lookup, AMap.find?_assign]
    · simp at h
  · simp [Communicator.lookup, h]

/-! ### A case -/

/-- Two ranks with two cells each, the second a halo cell; two exchanges of the same name, with local work in between. -/
def pairHalo : Halo where
  P := 2
  hash := fun s => s.length
  sendMap := fun r => if r = 0 then [[], [0]] else [[0], []]
  recvMap := fun r => if r = 0 then [[], [1]] else [[1], []]
  N := 2
  ex := fun _ => ⟨"T", 1, 0, 0, fun _ f => f, fun _ f => Function.update f 0 ((f 0).map fun e => e.map (· + 1))⟩
  init := fun r _ => [[UInt8.ofNat (10 * r)], [0]]

theorem pairHalo_fits : pairHalo.Fits := by
  have two : ∀ {p : Nat → Prop}, p 0 → p 1 → ∀ r < 2, p r := by
    intro p h0 h1 r hr
    match r, hr with
    | 0, _ => exact h0
    | 1, _ => exact h1
  refine ⟨?_, ?_, ?_, fun _ _ => Nat.one_pos, ?_, ?_⟩
  · exact two rfl rfl
  · exact two rfl rfl
  · exact two (two rfl rfl) (two rfl rfl)
  · refine two (two (two ?_ ?_) (two ?_ ?_)) (two (two ?_ ?_) (two ?_ ?_)) <;> intro i hi <;> revert i <;> decide
  · refine two (two (two ?_ ?_) (two ?_ ?_)) (two (two ?_ ?_) (two ?_ ?_)) <;> intro i hi <;> revert i <;> decide

/-- The values of the specification: each rank's halo cell has the other rank's value. -/
example : pairHalo.state 1 0 0 = [[1], [11]] ∧ pairHalo.state 1 1 0 = [[11], [1]] ∧ pairHalo.state 2 0 0 = [[2], [12]] := by decide

/-- Exchanges do take place: the first rank can start. -/
example : ∃ w, pairHalo.Run 1 w ∧ (w 0).opened = true := by
  have hi := (Halo.Run.init (H := pairHalo)).inv pairHalo_fits
  obtain ⟨pr, e, -⟩ := Halo.step_start pairHalo_fits hi (r := 0) (by decide) (by decide) rfl
  have st := HStep.start (H := pairHalo) (sync := true) (w := pairHalo.start) 0 (by decide) (by decide) rfl
  simp only [e, Res.ok_bind] at st
  exact ⟨_, .step .init st, by simp [Function.update_self]⟩

/-- Two exchanges open at the same time: both start, and the first cannot be finalised. -/
def twoOpen : Res Proc := do
  let pr ← Proc.startComm (fun s => s.length) ⟨Communicator.create 1 [[0]] [[1]], []⟩ 1 [[1], [2]] "a"
  pr.startComm (fun s => s.length) 1 [[1], [2]] "bb"

example : ∃ pr, twoOpen = .ok pr ∧ pr.finaliseComm 1 [[1], [2]] "a" = .ub := ⟨_, rfl, rfl⟩

end NeoFOAM
