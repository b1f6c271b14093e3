import Verif.Proofs.HaloBytes

/-!
# One process in a halo exchange
-/
namespace NeoFOAM

/-- The ranks something is exchanged with. -/
def activeRanks (sizes : List Nat) : List Nat := (List.range sizes.length).filter fun s => sizes.getD s 0 ≠ 0

theorem mem_activeRanks {sizes : List Nat} {s : Nat} : s ∈ activeRanks sizes ↔ s < sizes.length ∧ sizes.getD s 0 ≠ 0 := by
  simp [activeRanks]

/-- A freshly posted operation. -/
def freshOp (isSend : Bool) (p : BufPtr) (tag : Int) (sizes : List Nat) (t s : Nat) : MpiOp :=
  ⟨isSend, s, tag, p, partOff sizes t s, t * sizes.getD s 0, none, false, false⟩

theorem post_ok {hash : String → Nat} {b : HalfBuf} {sizes : List Nat} {t : Nat} {o : Option String} (h : b.Holds hash sizes t o)
    {tag : Int} (htag : b.tag = tag) (isSend : Bool) (p : BufPtr) (ops : List MpiOp) :
    ∃ req, post isSend p b ops = .ok ({ b with request := req }, ops ++ (activeRanks sizes).map (freshOp isSend p tag sizes t)) ∧
      req.length = b.request.length ∧
      ∀ s < sizes.length, (sizes.getD s 0 = 0 ∧ req[s]? = b.request[s]?) ∨
        ∃ q, (activeRanks sizes)[q]? = some s ∧ req[s]? = some (some (ops.length + q)) := by
  subst htag
  have key : ∀ k ≤ sizes.length, ∃ req, (List.range k).foldlM (postRank isSend p) (b, ops) =
      .ok ({ b with request := req }, ops ++ ((List.range k).filter fun s => sizes.getD s 0 ≠ 0).map (freshOp isSend p b.tag sizes t)) ∧
      req.length = b.request.length ∧
      (∀ s < k, (sizes.getD s 0 = 0 ∧ req[s]? = b.request[s]?) ∨
        ∃ q, ((List.range k).filter fun s => sizes.getD s 0 ≠ 0)[q]? = some s ∧ req[s]? = some (some (ops.length + q))) ∧
      ∀ s, k ≤ s → req[s]? = b.request[s]? := by
    intro k
    induction k with
    | zero => intro _; exact ⟨b.request, by simp, rfl, by omega, fun _ _ => rfl⟩
    | succ k ih =>
      intro hk
      obtain ⟨req, e1, l1, s1, r1⟩ := ih (by omega)
      have ho : ({ b with request := req } : HalfBuf).rankOffset = HalfBuf.layout sizes t := h.offs
      have g1 : rd ({ b with request := req } : HalfBuf).rankOffset (k + 1) = .ok (t * (sizes.take (k + 1)).sum) := by
        rw [ho]; exact rd_eq_ok_iff.2 (HalfBuf.layout_getElem? sizes t hk)
      have g2 : rd ({ b with request := req } : HalfBuf).rankOffset k = .ok (t * (sizes.take k).sum) := by
        rw [ho]; exact rd_eq_ok_iff.2 (HalfBuf.layout_getElem? sizes t (by omega))
      have hd : t * (sizes.take (k + 1)).sum - t * (sizes.take k).sum = t * sizes.getD k 0 := by
        rw [HalfBuf.take_succ_sum sizes (by omega), Nat.mul_add]; omega
      rw [List.range_succ, List.foldlM_append, e1, Res.ok_bind]
      simp only [List.foldlM_cons, List.foldlM_nil, postRank]
      rw [g1, Res.ok_bind, g2, Res.ok_bind, hd, List.filter_append]
      by_cases hz : sizes.getD k 0 = 0
      · refine ⟨req, ?_, l1, ?_, fun s hs => r1 s (by omega)⟩
        · rw [if_pos (by rw [hz]; rfl)]
          rw [show [k].filter (fun s => decide (sizes.getD s 0 ≠ 0)) = [] by
            rw [List.filter_cons_of_neg (by rw [hz]; decide)]; rfl, List.append_nil]
          rfl
        · intro s hs
          by_cases hsk : s = k
          · subst hsk; exact .inl ⟨hz, r1 s (le_refl _)⟩
          · rcases s1 s (by omega) with h1 | ⟨q, hq, hr⟩
            · exact .inl h1
            · refine .inr ⟨q, ?_, hr⟩
              rw [List.getElem?_append_left (List.getElem?_eq_some_iff.1 hq).1]
              exact hq
      · have hne : t * sizes.getD k 0 ≠ 0 := Nat.mul_ne_zero (by have := h.pos; omega) hz
        have hlen : k < req.length := by rw [l1, h.req]; omega
        refine ⟨req.set k (some (ops ++ ((List.range k).filter fun s => sizes.getD s 0 ≠ 0).map (freshOp isSend p b.tag sizes t)).length), ?_, by simpa using l1, ?_, ?_⟩
        · rw [if_neg hne, wr_ok hlen]
          rw [show [k].filter (fun s => decide (sizes.getD s 0 ≠ 0)) = [k] by
            rw [List.filter_cons_of_pos (by simpa using hz)]; rfl, List.map_append, ← List.append_assoc]
          rfl
        · intro s hs
          by_cases hsk : s = k
          · subst hsk
            refine .inr ⟨((List.range s).filter fun s => sizes.getD s 0 ≠ 0).length, ?_, ?_⟩
            · rw [List.getElem?_append_right (le_refl _)]
              rw [Nat.sub_self]
              rw [List.filter_cons_of_pos (by simpa using hz)]; rfl
            · rw [List.getElem?_set_self (by omega)]
              simp
          · rw [List.getElem?_set_ne (by omega)]
            rcases s1 s (by omega) with h1 | ⟨q, hq, hr⟩
            · exact .inl h1
            · refine .inr ⟨q, ?_, hr⟩
              rw [List.getElem?_append_left (List.getElem?_eq_some_iff.1 hq).1]
              exact hq
        · intro s hs
          rw [List.getElem?_set_ne (by omega)]
          exact r1 s (by omega)
  obtain ⟨req, h1, h2, h3, -⟩ := key sizes.length (le_refl _)
  refine ⟨req, ?_, h2, h3⟩
  have : post isSend p b ops = (List.range sizes.length).foldlM (postRank isSend p) (b, ops) := by unfold post; rw [h.ranks]
  rw [this]
  exact h1

/-- Testing requests that are all complete. -/
theorem testAll_true {done : Nat → Bool} {l : List (Option Nat)} (h : (testAll done l).1 = true) :
    (∀ i, some i ∈ l → done i = true) ∧ (testAll done l).2 = List.replicate l.length none := by
  induction l with
  | nil => simp [testAll]
  | cons x l ih =>
    cases x with
    | none =>
      simp only [testAll] at h ⊢
      obtain ⟨h1, h2⟩ := ih h
      refine ⟨fun i hi => h1 i (by simpa using hi), by rw [h2]; rfl⟩
    | some j =>
      by_cases hj : done j = true
      · simp only [testAll, hj, if_true] at h ⊢
        obtain ⟨h1, h2⟩ := ih h
        refine ⟨fun i hi => ?_, by rw [h2]; rfl⟩
        rcases List.mem_cons.1 hi with hi | hi
        · cases hi; exact hj
        · exact h1 i hi
      · simp [testAll, hj] at h

theorem testAll_of {done : Nat → Bool} {l : List (Option Nat)} (h : ∀ i, some i ∈ l → done i = true) : (testAll done l).1 = true := by
  induction l with
  | nil => rfl
  | cons x l ih =>
    have ih := ih fun i hi => h i (List.mem_cons_of_mem _ hi)
    cases x with
    | none => simpa [testAll] using ih
    | some j => simpa [testAll, h j (by simp)] using ih

/-- A test changes handles only from complete requests to null. -/
theorem testAll_get {done : Nat → Bool} {l : List (Option Nat)} :
    (testAll done l).2.length = l.length ∧ ∀ (s : Nat) x, (testAll done l).2[s]? = some x →
      l[s]? = some x ∨ (x = none ∧ ∃ i, l[s]? = some (some i) ∧ done i = true) := by
  induction l with
  | nil => simp [testAll]
  | cons y l ih =>
    obtain ⟨ih1, ih2⟩ := ih
    cases y with
    | none =>
      refine ⟨by simp [testAll, ih1], ?_⟩
      intro s x hx
      cases s with
      | zero => left; simpa [testAll] using hx
      | succ s => simpa using ih2 s x (by simpa [testAll] using hx)
    | some j =>
      by_cases hj : done j = true
      · refine ⟨by simp [testAll, hj, ih1], ?_⟩
        intro s x hx
        simp only [testAll, hj, if_true] at hx
        cases s with
        | zero => right; simp at hx; exact ⟨hx.symm, j, by simp, hj⟩
        | succ s => simpa using ih2 s x (by simpa using hx)
      · simp only [testAll, hj]
        exact ⟨by simp, fun s x hx => .inl (by simpa using hx)⟩

/-- Numbers of elements of the parts of a map. -/
def partSizes (map : List (List Nat)) : List Nat := map.map List.length

theorem partSizes_getD (map : List (List Nat)) (s : Nat) : (partSizes map).getD s 0 = (map.getD s []).length := by
  simp only [partSizes, List.getD, List.getElem?_map]
  cases map[s]? <;> rfl

theorem length_partSizes (map : List (List Nat)) : (partSizes map).length = map.length := by simp [partSizes]

theorem mapSizes_ok (map : List (List Nat)) : Communicator.mapSizes map.length map = .ok (partSizes map) := by
  unfold Communicator.mapSizes
  rw [mapM_ok _ (fun s => (map.getD s []).length) _ (fun s hs => by rw [rd_getD [] (List.mem_range.1 hs)]; rfl)]
  congr 1
  apply List.ext_getElem
  · simp [partSizes]
  · intro i h1 h2
    have : i < map.length := by simpa using h1
    simp [partSizes, List.getD, this]

/-- A communicator for `n` ranks with given maps. -/
structure Communicator.Has (c : Communicator) (n : Nat) (sm rm : List (List Nat)) : Prop where
  ranks : c.sizeRank = n
  send : c.sendMap = sm
  recv : c.recvMap = rm

/-- No exchange is open. -/
structure Communicator.Idle (hash : String → Nat) (c : Communicator) : Prop where
  closed : ∀ name p, c.table.find? name ≠ some (some p)
  bufs : (c.buffers = [] ∧ c.cap = 0) ∨ ∃ b t, c.buffers = [b] ∧ b.send.Holds hash (partSizes c.sendMap) t none ∧
    b.recv.Holds hash (partSizes c.recvMap) t none ∧ (∀ x ∈ b.send.request, x = none) ∧ ∀ x ∈ b.recv.request, x = none

/-- One exchange is open, in the only buffer. -/
structure Communicator.Busy (hash : String → Nat) (c : Communicator) (b : FullBuf) (t : Nat) (name : String) : Prop where
  bufs : c.buffers = [b]
  entry : c.table.find? name = some (some ⟨c.gen, 0⟩)
  others : ∀ name' p, name' ≠ name → c.table.find? name' ≠ some (some p)
  send : b.send.Holds hash (partSizes c.sendMap) t (some name)
  recv : b.recv.Holds hash (partSizes c.recvMap) t (some name)

/-- The buffer for a new exchange: the only one, free and with null handles. -/
theorem acquire_ok {hash : String → Nat} {c : Communicator} {n : Nat} {sm rm : List (List Nat)} (hc : c.Has n sm rm)
    (hsm : sm.length = n) (hrm : rm.length = n) (hi : c.Idle hash) (name : String) :
    ∃ c' b t, c.acquire name = .ok (c', ⟨c'.gen, 0⟩) ∧ c'.Has n sm rm ∧ c'.buffers = [b] ∧ (c.buffers ≠ [] → c'.gen = c.gen) ∧
      c'.table.find? name = some (some ⟨c'.gen, 0⟩) ∧ (∀ name' p, name' ≠ name → c'.table.find? name' ≠ some (some p)) ∧
      b.send.Holds hash (partSizes sm) t none ∧ b.recv.Holds hash (partSizes rm) t none ∧
      (∀ x ∈ b.send.request, x = none) ∧ ∀ x ∈ b.recv.request, x = none := by
  rcases hi.bufs with ⟨hb, hcap⟩ | ⟨b, t, hb, h1, h2, h3, h4⟩
  · obtain ⟨s, e1, h1⟩ := HalfBuf.create_holds (hash := hash) (partSizes sm)
    obtain ⟨r, e2, h2⟩ := HalfBuf.create_holds (hash := hash) (partSizes rm)
    rw [length_partSizes, hsm] at e1
    rw [length_partSizes, hrm] at e2
    have hf : c.findDuplexBuffer = none := by simp [Communicator.findDuplexBuffer, hb]
    have hreq : ∀ (sizes : List Nat) b, HalfBuf.create n sizes = .ok b → ∀ x ∈ b.request, x = none := by
      intro sizes b hb x hx
      unfold HalfBuf.create HalfBuf.setCommRankSize HalfBuf.updateDataSize at hb
      rw [Res.bind_eq_ok] at hb
      obtain ⟨st, -, hb⟩ := hb
      rw [Res.bind_eq_ok] at hb
      obtain ⟨offs, -, hb⟩ := hb
      cases hb
      simp [HalfBuf.resizeList, HalfBuf.unsized] at hx
      exact hx.2
    refine ⟨{ c with buffers := [⟨s, r⟩], cap := 1, gen := c.gen + 1, table := (c.table.assign name none).assign name (some ⟨c.gen + 1, 0⟩) },
      ⟨s, r⟩, 1, ?_, ⟨hc.ranks, hc.send, hc.recv⟩, rfl, fun h => absurd hb h, ?_, ?_, h1, h2, hreq _ _ e1, hreq _ _ e2⟩
    · unfold Communicator.acquire
      rw [hf]
      simp only [Communicator.createNewDuplexBuffer, hc.ranks, hc.send, hc.recv]
      rw [show Communicator.mapSizes n sm = .ok (partSizes sm) by rw [← hsm]; exact mapSizes_ok sm,
        show Communicator.mapSizes n rm = .ok (partSizes rm) by rw [← hrm]; exact mapSizes_ok rm]
      simp [FullBuf.create, e1, e2, hb, hcap]
    · rw [AMap.find?_assign]; simp
    · intro name' p hn
      rw [AMap.find?_assign, AMap.find?_assign]
      rw [if_neg hn, if_neg hn]
      exact hi.closed name' p
  · rw [hc.send] at h1
    rw [hc.recv] at h2
    have hini : b.isCommInit = false := by
      have := h1.name
      have : b.send.isCommInit = false := by
        cases hx : b.send.isCommInit with
        | false => rfl
        | true => rw [hx] at this; simp at this
      simp [FullBuf.isCommInit, this]
    have hf : c.findDuplexBuffer = some ⟨c.gen, 0⟩ := by
      simp [Communicator.findDuplexBuffer, hb, List.findIdx?_cons, hini]
    refine ⟨{ c with table := c.table.assign name (some ⟨c.gen, 0⟩) }, b, t, ?_, ⟨hc.ranks, hc.send, hc.recv⟩, hb, fun _ => rfl, ?_, ?_, h1, h2, h3, h4⟩
    · unfold Communicator.acquire
      rw [hf]
    · rw [AMap.find?_assign]; simp
    · intro name' p hn
      rw [AMap.find?_assign, if_neg hn]
      exact hi.closed name' p

/-- What the handles of a half buffer refer to after posting from `base` on: each active rank's handle is its position. -/
def HandlesFrom (req : List (Option Nat)) (sizes : List Nat) (base : Nat) : Prop :=
  ∀ s < sizes.length, (sizes.getD s 0 = 0 ∧ req[s]? = some none) ∨
    ∃ q, (activeRanks sizes)[q]? = some s ∧ req[s]? = some (some (base + q))

/-- **startComm** from an idle communicator. -/
theorem startComm_ok {hash : String → Nat} {pr : Proc} {n : Nat} {sm rm : List (List Nat)} (hc : pr.comm.Has n sm rm)
    (hsm : sm.length = n) (hrm : rm.length = n) (hi : pr.comm.Idle hash) {t : Nat} (ht : 0 < t) (name : String) {field : List Elem}
    (hf : ∀ s < n, ∀ i ∈ sm.getD s [], i < field.length ∧ (field.getD i []).length = t) :
    ∃ c b, pr.startComm hash t field name = .ok ⟨c, pr.ops
        ++ (activeRanks (partSizes sm)).map (freshOp true ⟨c.gen, 0⟩ (bufferHash hash name) (partSizes sm) t)
        ++ (activeRanks (partSizes rm)).map (freshOp false ⟨c.gen, 0⟩ (bufferHash hash name) (partSizes rm) t)⟩ ∧
      c.Has n sm rm ∧ c.Busy hash b t name ∧ (pr.comm.buffers ≠ [] → c.gen = pr.comm.gen) ∧
      (∀ s < n, slice b.send.bytes (partOff (partSizes sm) t s) (t * (sm.getD s []).length) = ((sm.getD s []).map fun i => field.getD i []).flatten) ∧
      HandlesFrom b.send.request (partSizes sm) pr.ops.length ∧
      HandlesFrom b.recv.request (partSizes rm) (pr.ops.length + (activeRanks (partSizes sm)).length) := by
  obtain ⟨c, b0, t0, ha, hc', hbufs, hgen, hent, hoth, hs0, hr0, hqs, hqr⟩ := acquire_ok hc hsm hrm hi name
  obtain ⟨s1, es, hs1, -, rs1⟩ := HalfBuf.initComm_holds hs0 ht name
  obtain ⟨r1, er, hr1, -, rr1⟩ := HalfBuf.initComm_holds hr0 ht name
  obtain ⟨bytes, ef, lf, sf⟩ := fillSend_ok (maps := sm) (field := field) hs1 (by rw [hsm]; exact hf)
  have hs2 := hs1.withBytes lf
  obtain ⟨req, ep, lp, hp⟩ := post_ok hs2 (tag := bufferHash hash name) hs2.tag true ⟨c.gen, 0⟩ pr.ops
  obtain ⟨req', ep', lp', hp'⟩ := post_ok hr1 (tag := bufferHash hash name) hr1.tag false ⟨c.gen, 0⟩ (pr.ops ++ (activeRanks (partSizes sm)).map (freshOp true ⟨c.gen, 0⟩ (bufferHash hash name) (partSizes sm) t))
  have hnone : ∀ (l : List (Option Nat)) (m : Nat), l.length = m → (∀ x ∈ l, x = none) → ∀ s < m, l[s]? = some none := by
    intro l m hl hx s hs
    rw [List.getElem?_eq_getElem (by omega), hx _ (List.getElem_mem _)]
  refine ⟨{ c with buffers := [⟨{ s1 with bytes := bytes, request := req }, { r1 with request := req' }⟩] },
    ⟨{ s1 with bytes := bytes, request := req }, { r1 with request := req' }⟩, ?_, ⟨hc'.ranks, hc'.send, hc'.recv⟩,
    ⟨rfl, hent, hoth, ?_, ?_⟩, hgen, ?_, ?_, ?_⟩
  · unfold Proc.startComm
    rw [ha, Res.ok_bind]
    simp only [Communicator.deref, hbufs, if_true]
    rw [show rd [b0] 0 = .ok b0 from rfl, Res.ok_bind]
    simp only [FullBuf.initComm, es, er, Res.ok_bind, Res.pure_eq]
    have ef' : fillSend c.sizeRank t field c.sendMap s1 = .ok { s1 with bytes := bytes } := by
      rw [hc'.ranks, hc'.send]; subst hsm; exact ef
    rw [ef', Res.ok_bind, ep, Res.ok_bind]
    simp only
    rw [ep', Res.ok_bind]
    simp only [Communicator.assign, hbufs, if_true]
    rfl
  · rw [hc'.send]; exact hs2.withRequest lp
  · rw [hc'.recv]; exact hr1.withRequest lp'
  · intro s hs
    exact sf s (by omega)
  · intro s hs
    rcases hp s hs with ⟨g1, g2⟩ | g
    · refine .inl ⟨g1, ?_⟩
      rw [g2]
      show s1.request[s]? = _
      rw [rs1]
      exact hnone _ _ hs0.req hqs s hs
    · exact .inr g
  · intro s hs
    rcases hp' s hs with ⟨g1, g2⟩ | ⟨q, g1, g2⟩
    · refine .inl ⟨g1, ?_⟩
      rw [g2, rr1]
      exact hnone _ _ hr0.req hqr s hs
    · refine .inr ⟨q, g1, ?_⟩
      rw [g2]
      simp

theorem FullBuf.isComplete_ok {hash : String → Nat} {b : FullBuf} {ss rs : List Nat} {t : Nat} {o : Option String}
    (hs : b.send.Holds hash ss t o) (hr : b.recv.Holds hash rs t o) (h1 : 0 < ss.length) (h2 : 0 < rs.length) (done : Nat → Bool) :
    ∃ f q q', b.isComplete done = .ok (f, ⟨{ b.send with request := q }, { b.recv with request := q' }⟩) ∧
      q.length = b.send.request.length ∧ q'.length = b.recv.request.length ∧
      (∀ (s : Nat) x, q[s]? = some x → b.send.request[s]? = some x ∨ (x = none ∧ ∃ i, b.send.request[s]? = some (some i) ∧ done i = true)) ∧
      (∀ (s : Nat) x, q'[s]? = some x → b.recv.request[s]? = some x ∨ (x = none ∧ ∃ i, b.recv.request[s]? = some (some i) ∧ done i = true)) ∧
      (f = true ↔ (∀ i, some i ∈ b.send.request → done i = true) ∧ ∀ i, some i ∈ b.recv.request → done i = true) ∧
      (f = true → (∀ x ∈ q, x = none) ∧ ∀ x ∈ q', x = none) := by
  have hne : b.send.request ≠ [] := by intro h; have := hs.req; rw [h] at this; simp at this; omega
  have hne' : b.recv.request ≠ [] := by intro h; have := hr.req; rw [h] at this; simp at this; omega
  unfold FullBuf.isComplete HalfBuf.isComplete
  rw [if_neg hne, if_neg hne', Res.ok_bind]
  by_cases hf : (testAll done b.send.request).1 = true
  · simp only [hf, if_true, Res.ok_bind]
    refine ⟨_, _, _, rfl, testAll_get.1, testAll_get.1, testAll_get.2, testAll_get.2, ?_, ?_⟩
    · exact ⟨fun h => ⟨(testAll_true hf).1, (testAll_true h).1⟩, fun h => testAll_of h.2⟩
    · intro h
      rw [(testAll_true hf).2, (testAll_true h).2]
      exact ⟨fun x hx => List.eq_of_mem_replicate hx, fun x hx => List.eq_of_mem_replicate hx⟩
  · simp only [hf]
    refine ⟨false, _, b.recv.request, rfl, testAll_get.1, rfl, testAll_get.2, fun s x h => .inl h, ?_, by simp⟩
    exact ⟨fun h => by simp at h, fun h => absurd (testAll_of h.1) hf⟩

/-- **isComplete** on the open exchange. -/
theorem isComplete_ok {hash : String → Nat} {pr : Proc} {b : FullBuf} {t : Nat} {name : String} (hb : pr.comm.Busy hash b t name)
    (h1 : 0 < pr.comm.sendMap.length) (h2 : 0 < pr.comm.recvMap.length) :
    ∃ f q q', pr.isComplete name = .ok (f, ⟨{ pr.comm with buffers := [⟨{ b.send with request := q }, { b.recv with request := q' }⟩] }, pr.ops⟩) ∧
      b.isComplete (opDone pr.ops) = .ok (f, ⟨{ b.send with request := q }, { b.recv with request := q' }⟩) ∧
      q.length = b.send.request.length ∧ q'.length = b.recv.request.length ∧
      (∀ (s : Nat) x, q[s]? = some x → b.send.request[s]? = some x ∨ (x = none ∧ ∃ i, b.send.request[s]? = some (some i) ∧ opDone pr.ops i = true)) ∧
      (∀ (s : Nat) x, q'[s]? = some x → b.recv.request[s]? = some x ∨ (x = none ∧ ∃ i, b.recv.request[s]? = some (some i) ∧ opDone pr.ops i = true)) ∧
      (f = true ↔ (∀ i, some i ∈ b.send.request → opDone pr.ops i = true) ∧ ∀ i, some i ∈ b.recv.request → opDone pr.ops i = true) ∧
      (f = true → (∀ x ∈ q, x = none) ∧ ∀ x ∈ q', x = none) := by
  obtain ⟨f, q, q', e, rest⟩ := FullBuf.isComplete_ok hb.send hb.recv (by rw [length_partSizes]; exact h1) (by rw [length_partSizes]; exact h2) (opDone pr.ops)
  refine ⟨f, q, q', ?_, e, rest⟩
  unfold Proc.isComplete Communicator.lookup
  rw [hb.entry, Res.ok_bind]
  simp only [Communicator.deref, Communicator.assign, hb.bufs, if_true]
  rw [show rd [b] 0 = .ok b from rfl, Res.ok_bind, e, Res.ok_bind]
  rfl

/-- **finaliseComm** on the open exchange. -/
theorem finaliseComm_ok {hash : String → Nat} {pr : Proc} {n : Nat} {sm rm : List (List Nat)} (hc : pr.comm.Has n sm rm)
    (hsm : sm.length = n) (hrm : rm.length = n) (hn : 0 < n) {b : FullBuf} {t : Nat} {name : String} (hb : pr.comm.Busy hash b t name)
    {field : List Elem} (vals : Nat → List Elem)
    (hl : ∀ s < n, (vals s).length = (rm.getD s []).length) (hv : ∀ s < n, ∀ v ∈ vals s, v.length = t)
    (hs : (∀ i, some i ∈ b.send.request → opDone pr.ops i = true) → (∀ i, some i ∈ b.recv.request → opDone pr.ops i = true) →
      ∀ s < n, slice b.recv.bytes (partOff (partSizes rm) t s) (t * (rm.getD s []).length) = (vals s).flatten)
    (hf : ∀ s < n, ∀ i ∈ rm.getD s [], i < field.length) :
    (pr.finaliseComm t field name = .ok none ∧
      ¬ ((∀ i, some i ∈ b.send.request → opDone pr.ops i = true) ∧ ∀ i, some i ∈ b.recv.request → opDone pr.ops i = true)) ∨
    ∃ c, pr.finaliseComm t field name = .ok (some ((List.range n).foldl (fun f s => writeAt f (rm.getD s []) (vals s)) field, ⟨c, pr.ops⟩)) ∧
      ((∀ i, some i ∈ b.send.request → opDone pr.ops i = true) ∧ ∀ i, some i ∈ b.recv.request → opDone pr.ops i = true) ∧
      c.Has n sm rm ∧ c.Idle hash ∧ c.buffers ≠ [] ∧ c.gen = pr.comm.gen := by
  obtain ⟨f, q, q', -, e, lq, lq', -, -, hf1, hf2⟩ := isComplete_ok hb (by rw [hc.send]; omega) (by rw [hc.recv]; omega)
  unfold Proc.finaliseComm Communicator.lookup
  rw [hb.entry, Res.ok_bind]
  simp only [Communicator.deref, Communicator.assign, hb.bufs, if_true]
  rw [show rd [b] 0 = .ok b from rfl, Res.ok_bind, e, Res.ok_bind]
  have hsend := hb.send
  have hrecv := hb.recv
  rw [hc.send] at hsend
  rw [hc.recv] at hrecv
  cases f with
  | false => exact .inl ⟨rfl, fun h => by have := hf1.2 h; simp at this⟩
  | true =>
    have hd := hf1.1 rfl
    obtain ⟨z1, z2⟩ := hf2 rfl
    right
    have hr' : ({ b.recv with request := q' } : HalfBuf).Holds hash (rm.map List.length) t (some name) := hrecv.withRequest lq'
    have hrd := readRecv_ok (maps := rm) (field := field) hr' vals (by rw [hrm]; exact hl) (by rw [hrm]; exact hv)
      (by rw [hrm]; exact hs hd.1 hd.2) (by rw [hrm]; exact hf)
    have hrd' : readRecv pr.comm.sizeRank t { b.recv with request := q' } pr.comm.recvMap field
        = .ok ((List.range n).foldl (fun f s => writeAt f (rm.getD s []) (vals s)) field) := by
      rw [hc.ranks, hc.recv]; subst hrm; exact hrd
    simp only [if_true]
    rw [hrd', Res.ok_bind]
    refine ⟨{ pr.comm with
      buffers := [(⟨{ b.send with request := q }, { b.recv with request := q' }⟩ : FullBuf).finaliseComm]
      table := pr.comm.table.assign name none }, rfl, hd, ⟨hc.ranks, hc.send, hc.recv⟩, ⟨?_, .inr ⟨_, t, rfl, ?_, ?_, z1, z2⟩⟩, by simp, rfl⟩
    · intro name' p
      simp only
      rw [AMap.find?_assign]
      split
      · simp
      · exact hb.others name' p ‹_›
    · simp only [hc.send]
      exact HalfBuf.finaliseComm_holds (hsend.withRequest lq)
    · simp only [hc.recv]
      exact HalfBuf.finaliseComm_holds (hrecv.withRequest lq')

end NeoFOAM
