import Verif.Props.C39_Halo

/-!
# C39 – exchanges that are open at the same time do not disturb each other, as long as the vector of buffers does not grow

Growing is what breaks them (`C39_violation_two_open`). Here: in every state a communicator can reach, starting, polling or finalising one
exchange changes neither what `isComplete` says about another nor what `finaliseComm` of the other delivers.
-/
namespace NeoFOAM

/-- The states of a communicator under any history of calls, with any state of the MPI operations at each call, and of messages put into its
receive buffers. -/
inductive Communicator.Reach (hash : String → Nat) : Communicator → Prop where
  | create (n : Nat) (sm rm : List (List Nat)) : Reach hash (Communicator.create n sm rm)
  | start {c : Communicator} {ops : List MpiOp} {t : Nat} {f : List Elem} {name : String} {pr : Proc} :
    Reach hash c → Proc.startComm hash ⟨c, ops⟩ t f name = .ok pr → Reach hash pr.comm
  | poll {c : Communicator} {ops : List MpiOp} {name : String} {fl : Bool} {pr : Proc} :
    Reach hash c → Proc.isComplete ⟨c, ops⟩ name = .ok (fl, pr) → Reach hash pr.comm
  | finalise {c : Communicator} {ops : List MpiOp} {t : Nat} {f f' : List Elem} {name : String} {pr : Proc} :
    Reach hash c → Proc.finaliseComm ⟨c, ops⟩ t f name = .ok (some (f', pr)) → Reach hash pr.comm
  | receive {c : Communicator} {ops : List MpiOp} {i : Nat} {bytes : List UInt8} {pr : Proc} :
    Reach hash c → Proc.accept ⟨c, ops⟩ i bytes = .ok pr → Reach hash pr.comm

/-- Whatever the MPI operations are, `isComplete` says the same about the exchange and `finaliseComm` delivers the same field. -/
def SameExchange (c c' : Communicator) (name : String) : Prop :=
  ∀ ops, Prod.fst <$> Proc.isComplete ⟨c', ops⟩ name = Prod.fst <$> Proc.isComplete ⟨c, ops⟩ name ∧
    ∀ t g, Option.map Prod.fst <$> Proc.finaliseComm ⟨c', ops⟩ t g name = Option.map Prod.fst <$> Proc.finaliseComm ⟨c, ops⟩ t g name

/-- The pointers of open exchanges that do not dangle lead to different buffers, which are in use. -/
structure Communicator.Ptrs (c : Communicator) : Prop where
  old : ∀ name p, c.table.find? name = some (some p) → p.gen ≤ c.gen
  used : ∀ name p, c.table.find? name = some (some p) → p.gen = c.gen → ∃ b, c.buffers[p.idx]? = some b ∧ b.isCommInit = true
  inj : ∀ name name' p, c.table.find? name = some (some p) → c.table.find? name' = some (some p) → p.gen = c.gen → name = name'

theorem assign_eq_ok {c c' : Communicator} {p : BufPtr} {b : FullBuf} (h : c.assign p b = .ok c') :
    p.gen = c.gen ∧ p.idx < c.buffers.length ∧ c' = { c with buffers := c.buffers.set p.idx b } := by
  unfold Communicator.assign at h
  split at h
  · rename_i hg
    rw [Res.bind_eq_ok] at h
    obtain ⟨l, hl, h⟩ := h
    simp only [Res.pure_eq, Res.ok.injEq] at h
    unfold wr at hl
    split at hl
    · rename_i hi
      simp only [Res.ok.injEq] at hl
      exact ⟨hg, hi, by rw [← h, ← hl]⟩
    · exact nomatch hl
  · exact nomatch h

theorem lookup_eq_ok {c : Communicator} {name : String} {p : BufPtr} (h : c.lookup name = .ok p) : c.table.find? name = some (some p) := by
  unfold Communicator.lookup at h
  split at h
  · rename_i q hq
    simp only [Res.ok.injEq] at h
    rw [hq, h]
  · exact nomatch h

theorem deref_eq_ok {c : Communicator} {p : BufPtr} {b : FullBuf} (h : c.deref p = .ok b) : p.gen = c.gen ∧ c.buffers[p.idx]? = some b := by
  unfold Communicator.deref at h
  split at h
  · rename_i hg; exact ⟨hg, (rd_eq_ok_iff).1 h⟩
  · exact nomatch h

/-- Changing a buffer that is in use, keeping it in use. -/
theorem Communicator.Ptrs.put {c : Communicator} (h : c.Ptrs) {p : BufPtr} {b b' : FullBuf} (hb : c.buffers[p.idx]? = some b)
    (hi : b'.isCommInit = b.isCommInit) : ({ c with buffers := c.buffers.set p.idx b' } : Communicator).Ptrs := by
  refine ⟨h.old, fun name q hq hg => ?_, h.inj⟩
  obtain ⟨x, hx, hxi⟩ := h.used name q hq hg
  by_cases e : q.idx = p.idx
  · rw [e, hb] at hx
    cases hx
    refine ⟨b', ?_, hi.trans hxi⟩
    rw [e]
    have := (List.getElem?_eq_some_iff.1 hb).1
    simp [this]
  · exact ⟨x, by simpa [List.getElem?_set, Ne.symm e] using hx, hxi⟩

/-- What `isComplete` does to a buffer. -/
theorem FullBuf.isComplete_init {done : Nat → Bool} {b b' : FullBuf} {fl : Bool} (h : b.isComplete done = .ok (fl, b')) :
    b'.isCommInit = b.isCommInit := by
  have key : ∀ {x x' : HalfBuf} {g : Bool}, x.isComplete done = .ok (g, x') → x'.isCommInit = x.isCommInit := by
    intro x x' g hx
    unfold HalfBuf.isComplete at hx
    split at hx
    · exact nomatch hx
    · simp only [Res.ok.injEq, Prod.mk.injEq] at hx
      rw [← hx.2]; rfl
  unfold FullBuf.isComplete at h
  rw [Res.bind_eq_ok] at h
  obtain ⟨⟨f, s⟩, hs, h⟩ := h
  simp only at h
  split at h
  · rw [Res.bind_eq_ok] at h
    obtain ⟨⟨g, r⟩, hr, h⟩ := h
    simp only [Res.pure_eq, Res.ok.injEq, Prod.mk.injEq] at h
    rw [← h.2]
    simp only [FullBuf.isCommInit, key hs, key hr]
  · simp only [Res.pure_eq, Res.ok.injEq, Prod.mk.injEq] at h
    rw [← h.2]
    simp only [FullBuf.isCommInit, key hs]

theorem bufferHash_ne (hash : String → Nat) (s : String) : bufferHash hash s ≠ -1 := by
  unfold bufferHash
  intro h
  simp only at h
  omega

/-- After `initComm` both halves are in use. -/
theorem FullBuf.initComm_init {hash : String → Nat} {b b' : FullBuf} {t : Nat} {name : String} (h : b.initComm hash t name = .ok b') :
    b'.send.tag = bufferHash hash name ∧ b'.recv.tag = bufferHash hash name := by
  have key : ∀ {x x' : HalfBuf}, x.initComm hash t name = .ok x' → x'.tag = bufferHash hash name := by
    intro x x' hx
    unfold HalfBuf.initComm at hx
    rw [Res.bind_eq_ok] at hx
    obtain ⟨y, -, hx⟩ := hx
    simp only [Res.pure_eq, Res.ok.injEq] at hx
    rw [← hx]
  unfold FullBuf.initComm at h
  rw [Res.bind_eq_ok] at h; obtain ⟨s, hs, h⟩ := h
  rw [Res.bind_eq_ok] at h; obtain ⟨r, hr, h⟩ := h
  simp only [Res.pure_eq, Res.ok.injEq] at h
  rw [← h]
  exact ⟨key hs, key hr⟩

theorem fillSend_tag {n size : Nat} {field : List Elem} {maps : List (List Nat)} {b b' : HalfBuf} (h : fillSend n size field maps b = .ok b') :
    b'.tag = b.tag := by
  unfold fillSend at h
  revert b b'
  induction List.range n with
  | nil => intro b b' h; simp only [List.foldlM_nil, Res.pure_eq, Res.ok.injEq] at h; rw [h]
  | cons r l ih =>
    intro b b' h
    rw [List.foldlM_cons, Res.bind_eq_ok] at h
    obtain ⟨x, hx, h⟩ := h
    rw [ih h]
    rw [Res.bind_eq_ok] at hx; obtain ⟨⟨o, k⟩, -, hx⟩ := hx
    simp only at hx
    rw [Res.bind_eq_ok] at hx; obtain ⟨mp, -, hx⟩ := hx
    rw [Res.bind_eq_ok] at hx; obtain ⟨by', -, hx⟩ := hx
    simp only [Res.pure_eq, Res.ok.injEq] at hx
    rw [← hx]

theorem post_tag {isSend : Bool} {p : BufPtr} {b b' : HalfBuf} {ops ops' : List MpiOp} (h : post isSend p b ops = .ok (b', ops')) : b'.tag = b.tag := by
  unfold post at h
  have key : ∀ (l : List Nat) (st st' : HalfBuf × List MpiOp), l.foldlM (postRank isSend p) st = .ok st' → st'.1.tag = st.1.tag := by
    intro l
    induction l with
    | nil => intro st st' h; simp only [List.foldlM_nil, Res.pure_eq, Res.ok.injEq] at h; rw [h]
    | cons r l ih =>
      intro st st' h
      rw [List.foldlM_cons, Res.bind_eq_ok] at h
      obtain ⟨x, hx, h⟩ := h
      rw [ih _ _ h]
      unfold postRank at hx
      rw [Res.bind_eq_ok] at hx; obtain ⟨e, -, hx⟩ := hx
      rw [Res.bind_eq_ok] at hx; obtain ⟨s, -, hx⟩ := hx
      split at hx
      · simp only [Res.ok.injEq] at hx; rw [hx]
      · rw [Res.bind_eq_ok] at hx; obtain ⟨q, -, hx⟩ := hx
        simp only [Res.pure_eq, Res.ok.injEq] at hx
        rw [← hx]
  exact key _ _ _ h

/-- The buffer a new exchange gets is not in use, and the buffers in use stay what they are unless the vector grows. -/
theorem acquire_facts {c c' : Communicator} {name : String} {p : BufPtr} (h : c.acquire name = .ok (c', p)) :
    p.gen = c'.gen ∧ (∀ b, c.buffers[p.idx]? = some b → b.isCommInit = false) ∧ c'.sizeRank = c.sizeRank ∧ c'.recvMap = c.recvMap ∧
      (c'.gen = c.gen ∨ c'.gen = c.gen + 1) ∧ (∀ (i : Nat) b, c.buffers[i]? = some b → c'.buffers[i]? = some b) ∧
      ∀ x, c'.table.find? x = if x = name then some (some p) else c.table.find? x := by
  unfold Communicator.acquire at h
  split at h
  · rename_i q hq
    simp only [Res.ok.injEq, Prod.mk.injEq] at h
    obtain ⟨rfl, rfl⟩ := h
    unfold Communicator.findDuplexBuffer at hq
    rw [Option.map_eq_some_iff] at hq
    obtain ⟨i, hi, rfl⟩ := hq
    refine ⟨rfl, fun b hb => ?_, rfl, rfl, .inl rfl, fun _ _ h => h, fun x => ?_⟩
    · rw [List.findIdx?_eq_some_iff_getElem] at hi
      obtain ⟨hl, hp, -⟩ := hi
      rw [List.getElem?_eq_getElem hl] at hb
      cases hb
      simpa using hp
    · exact AMap.find?_assign _ _ _ _
  · rename_i hq
    rw [Res.bind_eq_ok] at h
    obtain ⟨⟨c1, q⟩, hn, h⟩ := h
    simp only [Res.pure_eq, Res.ok.injEq, Prod.mk.injEq] at h
    obtain ⟨rfl, rfl⟩ := h
    unfold Communicator.createNewDuplexBuffer at hn
    rw [Res.bind_eq_ok] at hn; obtain ⟨s, -, hn⟩ := hn
    rw [Res.bind_eq_ok] at hn; obtain ⟨r, -, hn⟩ := hn
    rw [Res.bind_eq_ok] at hn; obtain ⟨b', -, hn⟩ := hn
    simp only [Res.pure_eq, Res.ok.injEq, Prod.mk.injEq] at hn
    obtain ⟨rfl, rfl⟩ := hn
    refine ⟨rfl, fun b hb => ?_, rfl, rfl, ?_, fun i b hb => ?_, fun x => ?_⟩
    · simp at hb
    · dsimp only; split <;> simp
    · have hl := (List.getElem?_eq_some_iff.1 hb).1
      dsimp only
      rw [List.getElem?_append_left hl, hb]
    · dsimp only
      rw [AMap.find?_assign, AMap.find?_assign]
      split <;> rfl

/-- What `startComm` does to the communicator. -/
theorem startComm_facts {hash : String → Nat} {pr pr' : Proc} {t : Nat} {f : List Elem} {name : String} (h : pr.startComm hash t f name = .ok pr') :
    ∃ c p b, pr.comm.acquire name = .ok (c, p) ∧ b.isCommInit = true ∧ p.idx < c.buffers.length ∧ pr'.comm = { c with buffers := c.buffers.set p.idx b } := by
  unfold Proc.startComm at h
  rw [Res.bind_eq_ok] at h; obtain ⟨⟨c, p⟩, h1, h⟩ := h
  simp only at h
  rw [Res.bind_eq_ok] at h; obtain ⟨b, -, h⟩ := h
  rw [Res.bind_eq_ok] at h; obtain ⟨b', hb', h⟩ := h
  rw [Res.bind_eq_ok] at h; obtain ⟨s, hs, h⟩ := h
  rw [Res.bind_eq_ok] at h; obtain ⟨⟨s', o'⟩, hs', h⟩ := h
  simp only at h
  rw [Res.bind_eq_ok] at h; obtain ⟨⟨r', o''⟩, hr', h⟩ := h
  simp only at h
  rw [Res.bind_eq_ok] at h; obtain ⟨c', hc, h⟩ := h
  simp only [Res.pure_eq, Res.ok.injEq] at h
  subst h
  obtain ⟨-, hl, rfl⟩ := assign_eq_ok hc
  obtain ⟨h2, h3⟩ := FullBuf.initComm_init hb'
  refine ⟨c, p, _, h1, ?_, hl, rfl⟩
  simp only [FullBuf.isCommInit, HalfBuf.isCommInit, Bool.and_eq_true, decide_eq_true_eq]
  rw [post_tag hs', fillSend_tag hs, h2, post_tag hr', h3]
  exact ⟨bufferHash_ne _ _, bufferHash_ne _ _⟩

/-- What `isComplete` does to the communicator. -/
theorem isComplete_facts {pr pr' : Proc} {name : String} {fl : Bool} (h : pr.isComplete name = .ok (fl, pr')) :
    ∃ p b b', pr.comm.table.find? name = some (some p) ∧ p.gen = pr.comm.gen ∧ pr.comm.buffers[p.idx]? = some b ∧ b'.isCommInit = b.isCommInit ∧
      pr'.comm = { pr.comm with buffers := pr.comm.buffers.set p.idx b' } := by
  unfold Proc.isComplete at h
  rw [Res.bind_eq_ok] at h; obtain ⟨p, hp, h⟩ := h
  rw [Res.bind_eq_ok] at h; obtain ⟨b, hb, h⟩ := h
  rw [Res.bind_eq_ok] at h; obtain ⟨⟨g, b'⟩, hb', h⟩ := h
  simp only at h
  rw [Res.bind_eq_ok] at h; obtain ⟨c, hc, h⟩ := h
  simp only [Res.pure_eq, Res.ok.injEq, Prod.mk.injEq] at h
  obtain ⟨-, rfl⟩ := h
  obtain ⟨h1, h2⟩ := deref_eq_ok hb
  obtain ⟨-, -, rfl⟩ := assign_eq_ok hc
  exact ⟨p, b, b', lookup_eq_ok hp, h1, h2, FullBuf.isComplete_init hb', rfl⟩

/-- What `finaliseComm` does to the communicator. -/
theorem finaliseComm_facts {pr pr' : Proc} {t : Nat} {f f' : List Elem} {name : String} (h : pr.finaliseComm t f name = .ok (some (f', pr'))) :
    ∃ p b', pr.comm.table.find? name = some (some p) ∧ p.gen = pr.comm.gen ∧
      pr'.comm = { pr.comm with buffers := pr.comm.buffers.set p.idx b', table := pr.comm.table.assign name none } := by
  unfold Proc.finaliseComm at h
  rw [Res.bind_eq_ok] at h; obtain ⟨p, hp, h⟩ := h
  rw [Res.bind_eq_ok] at h; obtain ⟨b, hb, h⟩ := h
  rw [Res.bind_eq_ok] at h; obtain ⟨⟨g, b'⟩, hb', h⟩ := h
  simp only at h
  split at h
  · rw [Res.bind_eq_ok] at h; obtain ⟨fd, -, h⟩ := h
    rw [Res.bind_eq_ok] at h; obtain ⟨c, hc, h⟩ := h
    simp only [Res.pure_eq, Res.ok.injEq, Option.some.injEq, Prod.mk.injEq] at h
    obtain ⟨-, rfl⟩ := h
    obtain ⟨h1, h2⟩ := deref_eq_ok hb
    obtain ⟨-, -, rfl⟩ := assign_eq_ok hc
    exact ⟨p, _, lookup_eq_ok hp, h1, rfl⟩
  · simp at h

/-- The pointers are good in every state. -/
theorem Communicator.Reach.ptrs {hash : String → Nat} {c : Communicator} (h : c.Reach hash) : c.Ptrs := by
  induction h with
  | create n sm rm => exact ⟨fun _ _ h => by simp [Communicator.create] at h, fun _ _ h => by simp [Communicator.create] at h,
      fun _ _ _ h => by simp [Communicator.create] at h⟩
  | @start c ops t f name pr _ hs ih =>
    obtain ⟨c', p, b, ha, hb, hl, e⟩ := startComm_facts hs
    dsimp only at ha
    obtain ⟨h1, h2, -, -, h4, h5, h6⟩ := acquire_facts ha
    rw [e]
    have hne : ∀ x q, x ≠ name → c.table.find? x = some (some q) → q.gen = c'.gen → c'.gen = c.gen ∧ q ≠ p := by
      intro x q hx hq hg
      have := ih.old x q hq
      have hg' : c'.gen = c.gen := by omega
      refine ⟨hg', ?_⟩
      rintro rfl
      obtain ⟨y, hy, hyi⟩ := ih.used x q hq (hg.trans hg')
      rw [h2 y hy] at hyi
      exact nomatch hyi
    refine ⟨fun x q hq => ?_, fun x q hq hg => ?_, fun x y q hx hy hg => ?_⟩
    · dsimp only at hq ⊢
      rw [h6] at hq
      split at hq
      · cases hq; exact h1.le
      · have := ih.old x q hq; omega
    · dsimp only at hq hg ⊢
      rw [h6] at hq
      split at hq
      · cases hq; exact ⟨b, by simp [hl], hb⟩
      · rename_i hx
        obtain ⟨hg', hqp⟩ := hne x q hx hq hg
        obtain ⟨y, hy, hyi⟩ := ih.used x q hq (hg.trans hg')
        refine ⟨y, ?_, hyi⟩
        have : p.idx ≠ q.idx := fun e => hqp (by cases p; cases q; simp_all)
        rw [List.getElem?_set_ne this]
        exact h5 _ _ hy
    · dsimp only at hx hy hg
      rw [h6] at hx hy
      split at hx <;> split at hy
      · rename_i e1 e2; rw [e1, e2]
      · rename_i e1 e2
        cases hx
        exact absurd rfl (hne y _ e2 hy hg).2
      · rename_i e1 e2
        cases hy
        exact absurd rfl (hne x _ e1 hx hg).2
      · rename_i e1 e2
        exact ih.inj x y q hx hy (hg.trans (hne x q e1 hx hg).1)
  | poll _ hs ih =>
    obtain ⟨p, b, b', -, -, h3, h4, e⟩ := isComplete_facts hs
    rw [e]
    exact ih.put h3 h4
  | @finalise c ops t f f' name pr _ hs ih =>
    obtain ⟨p, b', h1, h2, e⟩ := finaliseComm_facts hs
    dsimp only at h1 h2
    rw [e]
    have hfind : ∀ x q, (c.table.assign name none).find? x = some (some q) → x ≠ name ∧ c.table.find? x = some (some q) := by
      intro x q hx
      rw [AMap.find?_assign] at hx
      split at hx
      · exact nomatch hx
      · rename_i hn; exact ⟨hn, hx⟩
    refine ⟨fun x q hq => ih.old x q (hfind x q hq).2, fun x q hq hg => ?_, fun x y q hx hy hg => ih.inj x y q (hfind x q hx).2 (hfind y q hy).2 hg⟩
    obtain ⟨hxn, hq⟩ := hfind x q hq
    obtain ⟨z, hz, hzi⟩ := ih.used x q hq hg
    refine ⟨z, ?_, hzi⟩
    have : p.idx ≠ q.idx := fun e => hxn (ih.inj x name q hq (by rw [h1]; cases p; cases q; simp_all) hg)
    dsimp only
    rw [List.getElem?_set_ne this]
    exact hz
  | @receive c ops i bytes pr _ hs ih =>
    unfold Proc.accept at hs
    rw [Res.bind_eq_ok] at hs; obtain ⟨o, -, hs⟩ := hs
    rw [Res.bind_eq_ok] at hs; obtain ⟨b, hb, hs⟩ := hs
    split at hs
    · exact nomatch hs
    · rw [Res.bind_eq_ok] at hs; obtain ⟨nw, -, hs⟩ := hs
      rw [Res.bind_eq_ok] at hs; obtain ⟨c', hc, hs⟩ := hs
      rw [Res.bind_eq_ok] at hs; obtain ⟨ops', -, hs⟩ := hs
      simp only [Res.pure_eq, Res.ok.injEq] at hs
      subst hs
      obtain ⟨-, -, rfl⟩ := assign_eq_ok hc
      exact ih.put (deref_eq_ok hb).2 rfl

/-- Two communicators whose open exchange `name` is in equal buffers. -/
theorem sameExchange_of {c c' : Communicator} {name : String} (h1 : c'.sizeRank = c.sizeRank) (h2 : c'.recvMap = c.recvMap)
    (h3 : c'.table.find? name = c.table.find? name)
    (h4 : ∀ p, c.table.find? name = some (some p) → c'.deref p = c.deref p) : SameExchange c c' name := by
  intro ops
  have hl : c'.lookup name = c.lookup name := by unfold Communicator.lookup; rw [h3]
  constructor
  · unfold Proc.isComplete
    rw [hl]
    dsimp only
    cases e : c.lookup name with
    | ok p =>
      have hd := h4 p (lookup_eq_ok e)
      simp only [Res.ok_bind, hd]
      cases e2 : c.deref p with
      | ok b =>
        simp only [Res.ok_bind]
        cases e3 : b.isComplete (opDone ops) with
        | ok x =>
          simp only [Res.ok_bind]
          have hok : ∀ d : Communicator, d.deref p = .ok b → ∃ d', d.assign p x.2 = .ok d' := by
            intro d hd
            obtain ⟨hg, hi⟩ := deref_eq_ok hd
            unfold Communicator.assign
            rw [if_pos hg, wr_ok (List.getElem?_eq_some_iff.1 hi).1]
            exact ⟨_, rfl⟩
          obtain ⟨d1, hd1⟩ := hok c e2
          obtain ⟨d2, hd2⟩ := hok c' (hd.trans e2)
          rw [hd1, hd2]
          rfl
        | throw x => rfl
        | abort => rfl
        | ub => rfl
      | throw x => rfl
      | abort => rfl
      | ub => rfl
    | throw x => rfl
    | abort => rfl
    | ub => rfl
  · intro t g
    unfold Proc.finaliseComm
    rw [hl]
    dsimp only
    cases e : c.lookup name with
    | ok p =>
      have hd := h4 p (lookup_eq_ok e)
      simp only [Res.ok_bind, hd, h1, h2]
      cases e2 : c.deref p with
      | ok b =>
        simp only [Res.ok_bind]
        cases e3 : b.isComplete (opDone ops) with
        | ok x =>
          simp only [Res.ok_bind]
          split
          · cases e4 : readRecv c.sizeRank t x.2.recv c.recvMap g with
            | ok fd =>
              simp only [Res.ok_bind]
              have hok : ∀ d : Communicator, d.deref p = .ok b → ∃ d', d.assign p x.2.finaliseComm = .ok d' := by
                intro d hd
                obtain ⟨hg, hi⟩ := deref_eq_ok hd
                unfold Communicator.assign
                rw [if_pos hg, wr_ok (List.getElem?_eq_some_iff.1 hi).1]
                exact ⟨_, rfl⟩
              obtain ⟨d1, hd1⟩ := hok c e2
              obtain ⟨d2, hd2⟩ := hok c' (hd.trans e2)
              rw [hd1, hd2]
              rfl
            | throw x => rfl
            | abort => rfl
            | ub => rfl
          · rfl
        | throw x => rfl
        | abort => rfl
        | ub => rfl
      | throw x => rfl
      | abort => rfl
      | ub => rfl
    | throw x => rfl
    | abort => rfl
    | ub => rfl

/-- **C39 (independence)** – In every state a communicator can reach: polling or finalising one exchange, and starting one that does not make the
vector of buffers grow, changes neither what `isComplete` says about another exchange nor the field that `finaliseComm` of the other delivers,
whatever MPI does later. -/
theorem C39_independent_partial {hash : String → Nat} {c : Communicator} (h : c.Reach hash) {a b : String} (hab : a ≠ b) :
    (∀ ops t f pr', Proc.startComm hash ⟨c, ops⟩ t f b = .ok pr' → pr'.comm.gen = c.gen → SameExchange c pr'.comm a) ∧
    (∀ ops fl pr', Proc.isComplete ⟨c, ops⟩ b = .ok (fl, pr') → SameExchange c pr'.comm a) ∧
    (∀ ops t f f' pr', Proc.finaliseComm ⟨c, ops⟩ t f b = .ok (some (f', pr')) → SameExchange c pr'.comm a) := by
  have hp := h.ptrs
  have hother : ∀ {p q : BufPtr}, c.table.find? a = some (some p) → c.table.find? b = some (some q) → p.gen = c.gen → q.gen = c.gen → q.idx ≠ p.idx := by
    intro p q hpa hqb hpg hqg e
    exact hab (hp.inj a b p hpa (by rw [hqb]; cases p; cases q; simp_all) hpg)
  refine ⟨fun ops t f pr' hs hg => ?_, fun ops fl pr' hs => ?_, fun ops t f f' pr' hs => ?_⟩
  · obtain ⟨c', p, bf, ha, hb, hl, e⟩ := startComm_facts hs
    dsimp only at ha
    obtain ⟨h1, h2, h7, h8, -, h5, h6⟩ := acquire_facts ha
    rw [e] at hg ⊢
    dsimp only at hg
    refine sameExchange_of h7 h8 ?_ fun q hq => ?_
    · dsimp only; rw [h6, if_neg hab]
    · unfold Communicator.deref
      dsimp only
      rw [hg]
      by_cases hqg : q.gen = c.gen
      · obtain ⟨y, hy, hyi⟩ := hp.used a q hq hqg
        have hne : p.idx ≠ q.idx := fun e => by
          rw [← e] at hy
          rw [h2 y hy] at hyi
          exact nomatch hyi
        rw [if_pos hqg, if_pos hqg, (rd_eq_ok_iff).2 hy, (rd_eq_ok_iff).2]
        rw [List.getElem?_set_ne hne]
        exact h5 _ _ hy
      · rw [if_neg hqg, if_neg hqg]
  · obtain ⟨p, bf, b', h1, h2, h3, -, e⟩ := isComplete_facts hs
    dsimp only at h1 h2 h3
    rw [e]
    refine sameExchange_of rfl rfl rfl fun q hq => ?_
    unfold Communicator.deref
    by_cases hqg : q.gen = c.gen
    · obtain ⟨y, hy, -⟩ := hp.used a q hq hqg
      rw [if_pos hqg, if_pos hqg, (rd_eq_ok_iff).2 hy, (rd_eq_ok_iff).2]
      rw [List.getElem?_set_ne (hother hq h1 hqg h2)]
      exact hy
    · rw [if_neg hqg, if_neg hqg]
  · obtain ⟨p, b', h1, h2, e⟩ := finaliseComm_facts hs
    dsimp only at h1 h2
    rw [e]
    refine sameExchange_of rfl rfl (by dsimp only; rw [AMap.find?_assign, if_neg hab]) fun q hq => ?_
    unfold Communicator.deref
    by_cases hqg : q.gen = c.gen
    · obtain ⟨y, hy, -⟩ := hp.used a q hq hqg
      rw [if_pos hqg, if_pos hqg, (rd_eq_ok_iff).2 hy, (rd_eq_ok_iff).2]
      rw [List.getElem?_set_ne (hother hq h1 hqg h2)]
      exact hy
    · rw [if_neg hqg, if_neg hqg]

/-- Four exchanges are started and two of them lost; the other two are open at the same time. -/
def manyOpen : Res Proc := do
  let pr ← Proc.startComm (fun s => s.length) ⟨Communicator.create 1 [[]] [[]], []⟩ 1 [] "a"
  let pr ← pr.startComm (fun s => s.length) 1 [] "bb"
  pr.startComm (fun s => s.length) 1 [] "ccc"

/-- The fourth start does not grow the vector, and both exchanges can be finalised. -/
example : ∃ pr pr', manyOpen = .ok pr ∧ pr.startComm (fun s => s.length) 1 [] "dddd" = .ok pr' ∧ pr'.comm.gen = pr.comm.gen ∧
    Option.map Prod.fst <$> pr'.finaliseComm 1 [[7]] "ccc" = .ok (some [[7]]) ∧ Option.map Prod.fst <$> pr'.finaliseComm 1 [[7]] "dddd" = .ok (some [[7]]) :=
  ⟨_, _, rfl, rfl, rfl, rfl, rfl⟩

/-- **C39 (no spilling)** – In every state: a message MPI puts into a receive fits it, its bytes lie in the buffer from the offset of the receive on, and no byte outside the receive's
range changes, neither of the other ranks' segments nor of the send buffer. -/
theorem C39_no_spill_partial {pr pr' : Proc} {i : Nat} {bytes : List UInt8} (h : pr.accept i bytes = .ok pr') :
    ∃ o b b', pr.ops[i]? = some o ∧ pr.comm.deref o.buf = .ok b ∧ pr'.comm.deref o.buf = .ok b' ∧ bytes.length ≤ o.len ∧ b'.send = b.send ∧
      b'.recv.bytes.length = b.recv.bytes.length ∧ slice b'.recv.bytes o.off bytes.length = bytes ∧
      ∀ off n, off + n ≤ o.off ∨ o.off + o.len ≤ off → slice b'.recv.bytes off n = slice b.recv.bytes off n := by
  unfold Proc.accept at h
  rw [Res.bind_eq_ok] at h; obtain ⟨o, ho, h⟩ := h
  rw [Res.bind_eq_ok] at h; obtain ⟨b, hb, h⟩ := h
  split at h
  · exact nomatch h
  · rename_i hl
    rw [Res.bind_eq_ok] at h; obtain ⟨nw, hnw, h⟩ := h
    rw [Res.bind_eq_ok] at h; obtain ⟨c', hc, h⟩ := h
    rw [Res.bind_eq_ok] at h; obtain ⟨ops', -, h⟩ := h
    simp only [Res.pure_eq, Res.ok.injEq] at h
    subst h
    have hfit : o.off + bytes.length ≤ b.recv.bytes.length := by
      unfold putBytes at hnw
      split at hnw
      · assumption
      · exact nomatch hnw
    obtain ⟨nw', e1, e2, e3, e4⟩ := putBytes_ok hfit
    rw [e1] at hnw
    cases hnw
    obtain ⟨h1, h2, rfl⟩ := assign_eq_ok hc
    refine ⟨o, b, ⟨b.send, { b.recv with bytes := nw }⟩, rd_eq_ok_iff.1 ho, hb, ?_, not_lt.1 hl, rfl, e2, e3, fun off n hd => e4 off n (by omega)⟩
    unfold Communicator.deref
    rw [if_pos h1]
    exact rd_eq_ok_iff.2 (List.getElem?_set_self h2)

end NeoFOAM
