import Verif.Proofs.HaloInv

/-!
# Halo exchanges: every step keeps the invariants
-/
namespace NeoFOAM
namespace Halo
variable {H : Halo}

theorem matched_congr {r : Nat} {x y : HRank} (hc : y.count = x.count) (ho : y.proc.ops = x.proc.ops) (j s : Nat) :
    H.Matched r y j s ↔ H.Matched r x j s := by
  unfold Matched; rw [hc, ho]

theorem received_congr {r : Nat} {x y : HRank} (hc : y.count = x.count) (ho : y.proc.ops = x.proc.ops) (j s : Nat) :
    H.Received r y j s ↔ H.Received r x j s := by
  unfold Received; rw [hc, ho]

/-- Replacing one rank, without a change in what is matched and received. -/
theorem Inv.update {w : HWorld} (h : H.Inv w) {r : Nat} {y : HRank} (hy : H.RankInv r y)
    (hm : ∀ j s, H.Matched r y j s ↔ H.Matched r (w r) j s) (hr : ∀ j s, H.Received r y j s ↔ H.Received r (w r) j s) :
    H.Inv (Function.update w r y) := by
  have hM : ∀ r' j s, H.Matched r' (Function.update w r y r') j s ↔ H.Matched r' (w r') j s := by
    intro r' j s
    by_cases e : r' = r
    · subst e; rw [Function.update_self]; exact hm j s
    · rw [Function.update_of_ne e]
  have hR : ∀ r' j s, H.Received r' (Function.update w r y r') j s ↔ H.Received r' (w r') j s := by
    intro r' j s
    by_cases e : r' = r
    · subst e; rw [Function.update_self]; exact hr j s
    · rw [Function.update_of_ne e]
  refine ⟨?_, ?_⟩
  · intro r' hr'
    by_cases e : r' = r
    · subst e; rw [Function.update_self]; exact hy
    · rw [Function.update_of_ne e]; exact h.rank r' hr'
  · intro r' hr' s hs j
    rw [hM, hR]
    exact h.link r' hr' s hs j

theorem Inv.init : H.Inv H.start := by
  refine ⟨?_, ?_⟩
  · intro r _
    refine ⟨⟨rfl, rfl, rfl⟩, ?_, rfl, rfl, ?_, ?_, ?_, ?_, .inl ⟨rfl, ⟨?_, .inl ⟨rfl, rfl⟩⟩, ?_⟩⟩
    · simp [start, HRank.count]
    · intro i κ o _ h; simp [start] at h
    · intro i κ o _ h; simp [start] at h
    · intro i κ o bs _ h; simp [start] at h
    · intro i κ o _ h; simp [start] at h
    · intro name p; simp [start, Communicator.create, AMap.find?]
    · intro h; simp [start] at h
  · intro r _ s _ j
    constructor
    · rintro ⟨i, o, _, h, _⟩; simp [start] at h
    · rintro ⟨i, o, _, h, _⟩; simp [start] at h

/-! ### Starting an exchange -/

theorem key_send {r n q s : Nat} (h : (activeRanks (partSizes (H.sendMap r)))[q]? = some s) :
    (H.keys r (n + 1))[(H.keys r n).length + q]? = some ⟨n, true, s⟩ := by
  have hq := (List.getElem?_eq_some_iff.1 h).1
  rw [keys_succ, List.getElem?_append_right (by omega), Nat.add_sub_cancel_left]
  unfold roundKeys
  rw [List.getElem?_append_left (by simpa using hq), List.getElem?_map, h]
  rfl

theorem key_recv {r n q s : Nat} (h : (activeRanks (partSizes (H.recvMap r)))[q]? = some s) :
    (H.keys r (n + 1))[(H.keys r n).length + (activeRanks (partSizes (H.sendMap r))).length + q]? = some ⟨n, false, s⟩ := by
  rw [keys_succ, List.getElem?_append_right (by omega)]
  unfold roundKeys
  rw [List.getElem?_append_right (by rw [List.length_map]; omega), List.length_map, List.getElem?_map]
  rw [show (H.keys r n).length + (activeRanks (partSizes (H.sendMap r))).length + q - (H.keys r n).length
    - (activeRanks (partSizes (H.sendMap r))).length = q by omega, h]
  rfl

/-- The operations posted for a round. -/
def roundOps (H : Halo) (r n gen : Nat) : List MpiOp :=
  (H.roundKeys r n).map fun κ => freshOp κ.isSend ⟨gen, 0⟩ (bufferHash H.hash (H.ex n).name) (partSizes (H.map r κ.isSend)) (H.ex n).size κ.peer

theorem roundOps_eq (H : Halo) (r n gen : Nat) : H.roundOps r n gen =
    (activeRanks (partSizes (H.sendMap r))).map (freshOp true ⟨gen, 0⟩ (bufferHash H.hash (H.ex n).name) (partSizes (H.sendMap r)) (H.ex n).size)
    ++ (activeRanks (partSizes (H.recvMap r))).map (freshOp false ⟨gen, 0⟩ (bufferHash H.hash (H.ex n).name) (partSizes (H.recvMap r)) (H.ex n).size) := by
  unfold roundOps roundKeys
  rw [List.map_append, List.map_map, List.map_map]
  rfl

/-- An operation after starting: an old one, or a fresh one of the new round. -/
theorem started_op {r n gen : Nat} {ops : List MpiOp} (hl : ops.length = (H.keys r n).length) {i : Nat} {κ : OpKey} {o : MpiOp}
    (hk : (H.keys r (n + 1))[i]? = some κ) (ho : (ops ++ H.roundOps r n gen)[i]? = some o) :
    ((H.keys r n)[i]? = some κ ∧ ops[i]? = some o) ∨ (κ.round = n ∧ H.Posted r gen κ o ∧ o.payload = none ∧ o.matched = false ∧ o.done = false) := by
  rw [keys_succ] at hk
  by_cases hi : i < ops.length
  · rw [List.getElem?_append_left (by omega)] at hk
    rw [List.getElem?_append_left hi] at ho
    exact .inl ⟨hk, ho⟩
  · rw [List.getElem?_append_right (by omega)] at hk
    rw [List.getElem?_append_right (by omega), hl, roundOps, List.getElem?_map, hk] at ho
    have hn := (mem_roundKeys.1 (List.mem_of_getElem? hk)).1
    simp only [Option.map_some, Option.some.injEq] at ho
    subst ho
    refine .inr ⟨hn, ⟨rfl, rfl, by rw [hn]; rfl, rfl, by rw [hn]; rfl, ?_⟩, rfl, rfl, rfl⟩
    rw [hn]
    show _ * (partSizes _).getD _ 0 = _
    rw [partSizes_getD]

theorem old_op {r n gen : Nat} {ops : List MpiOp} (hl : ops.length = (H.keys r n).length) {i : Nat} {κ : OpKey} {o : MpiOp}
    (hk : (H.keys r n)[i]? = some κ) (ho : ops[i]? = some o) :
    (H.keys r (n + 1))[i]? = some κ ∧ (ops ++ H.roundOps r n gen)[i]? = some o := by
  have h1 := (List.getElem?_eq_some_iff.1 hk).1
  rw [keys_succ, List.getElem?_append_left h1, List.getElem?_append_left (by omega)]
  exact ⟨hk, ho⟩

theorem step_start (hF : H.Fits) {w : HWorld} (h : H.Inv w) {r : Nat} (hr : r < H.P) (hk : (w r).pc < H.N) (ho : (w r).opened = false) :
    ∃ pr, (w r).proc.startComm H.hash (H.ex (w r).pc).size ((w r).fields (H.ex (w r).pc).src) (H.ex (w r).pc).name = .ok pr ∧
      H.Inv (Function.update w r ⟨(w r).pc, true, (H.ex (w r).pc).mid r (w r).fields, pr⟩) ∧
      pr.ops = (w r).proc.ops ++ H.roundOps r (w r).pc pr.comm.gen := by
  have hR := h.rank r hr
  have hcnt : (w r).count = (w r).pc := by simp [HRank.count, ho]
  have hfld : (w r).fields = H.state (w r).pc r := by have := hR.fields; rw [ho] at this; simpa using this
  rcases hR.state with ⟨-, hidle, hbufs⟩ | ⟨hop, -⟩
  swap
  · rw [ho] at hop; cases hop
  have hlen := hR.len
  rw [hcnt] at hlen
  obtain ⟨c, b, e, hc, hb, hgen, hsb, hh1, hh2⟩ := startComm_ok hR.has (hF.sendLen r hr) (hF.recvLen r hr) hidle (hF.pos _ hk) (H.ex (w r).pc).name
    (field := (w r).fields (H.ex (w r).pc).src) (by rw [hfld]; intro s hs; exact hF.sends _ hk r hr s hs)
  rw [List.append_assoc, ← roundOps_eq] at e
  refine ⟨_, e, ?_, rfl⟩
  have hG : ∀ (i : Nat) κ, (H.keys r (w r).pc)[i]? = some κ → c.gen = (w r).proc.comm.gen := by
    intro i κ hi
    have := (mem_keys.1 (List.mem_of_getElem? hi)).1
    exact hgen (hbufs (by omega))
  have hop' : ∀ (i : Nat) κ o, (H.keys r ((w r).pc + 1))[i]? = some κ → ((w r).proc.ops ++ H.roundOps r (w r).pc c.gen)[i]? = some o →
      ((H.keys r (w r).pc)[i]? = some κ ∧ (w r).proc.ops[i]? = some o) ∨
        (κ.round = (w r).pc ∧ H.Posted r c.gen κ o ∧ o.payload = none ∧ o.matched = false ∧ o.done = false) := fun i κ o h1 h2 => started_op hlen h1 h2
  refine h.update ⟨hc, by simp [HRank.count]; omega, by simp [hfld], ?_, ?_, ?_, ?_, ?_, .inr ⟨rfl, b, ?_⟩⟩ ?_ ?_
  · simp only [HRank.count, if_true, keys_succ, List.length_append, hlen, roundOps, List.length_map]
  · intro i κ o h1 h2
    rcases hop' i κ o h1 h2 with ⟨g1, g2⟩ | ⟨-, g, -⟩
    · have := hR.posted i κ o (by rw [hcnt]; exact g1) g2
      rw [← hG i κ g1] at this
      exact this
    · exact g
  · intro i κ o h1 h2 hlt
    rcases hop' i κ o h1 h2 with ⟨g1, g2⟩ | ⟨g, -⟩
    · exact hR.past i κ o (by rw [hcnt]; exact g1) g2 hlt
    · simp only at hlt; omega
  · intro i κ o bs h1 h2 hs hp
    rcases hop' i κ o h1 h2 with ⟨g1, g2⟩ | ⟨-, -, g, -⟩
    · exact hR.pay i κ o bs (by rw [hcnt]; exact g1) g2 hs hp
    · rw [g] at hp; cases hp
  · intro i κ o h1 h2 hs hp
    rcases hop' i κ o h1 h2 with ⟨g1, g2⟩ | ⟨-, -, -, g, g'⟩
    · exact hR.read i κ o (by rw [hcnt]; exact g1) g2 hs hp
    · rw [g, g'] at hp; simp at hp
  · have hbs := hb.send
    have hbr := hb.recv
    rw [hc.send] at hbs
    rw [hc.recv] at hbr
    rw [hlen] at hh1 hh2
    refine ⟨hb, ?_, ?_, ?_, ?_, ?_, ?_⟩
    · intro s hs
      rw [hsb s hs, hfld]
      rfl
    · intro s hs i o h1 h2 hd
      rcases hop' i _ o h1 h2 with ⟨g1, -⟩ | ⟨-, -, -, -, g⟩
      · have := (mem_keys.1 (List.mem_of_getElem? g1)).1
        simp at this
      · rw [g] at hd; cases hd
    · intro i s h1
      left
      have hm := mem_keys.1 (List.mem_of_getElem? h1)
      simp only [Halo.map, if_true] at hm
      rcases hh1 s (by rw [length_partSizes]; exact hm.2.1) with ⟨g, -⟩ | ⟨q, g1, g2⟩
      · rw [partSizes_getD] at g; exact absurd g hm.2.2
      · have := keys_inj h1 (key_send (H := H) (n := (w r).pc) g1)
        rw [this]
        exact List.mem_of_getElem? g2
    · intro i s h1
      left
      have hm := mem_keys.1 (List.mem_of_getElem? h1)
      simp only [Halo.map] at hm
      rcases hh2 s (by rw [length_partSizes]; exact hm.2.1) with ⟨g, -⟩ | ⟨q, g1, g2⟩
      · rw [partSizes_getD] at g; exact absurd g hm.2.2
      · have := keys_inj h1 (key_recv (H := H) (n := (w r).pc) g1)
        rw [this]
        exact List.mem_of_getElem? g2
    · intro i hi
      obtain ⟨s, hs, es⟩ := List.mem_iff_getElem.1 hi
      have es' : b.send.request[s]? = some (some i) := by rw [List.getElem?_eq_getElem hs, es]
      rcases hh1 s (by rw [← hbs.req]; exact hs) with ⟨-, g⟩ | ⟨q, g1, g2⟩
      · rw [g] at es'; cases es'
      · rw [g2] at es'
        injection es' with es'
        injection es' with es'
        refine ⟨s, ?_⟩
        rw [← es']
        exact key_send g1
    · intro i hi
      obtain ⟨s, hs, es⟩ := List.mem_iff_getElem.1 hi
      have es' : b.recv.request[s]? = some (some i) := by rw [List.getElem?_eq_getElem hs, es]
      rcases hh2 s (by rw [← hbr.req]; exact hs) with ⟨-, g⟩ | ⟨q, g1, g2⟩
      · rw [g] at es'; cases es'
      · rw [g2] at es'
        injection es' with es'
        injection es' with es'
        refine ⟨s, ?_⟩
        rw [← es']
        exact key_recv g1
  · intro j s
    constructor
    · rintro ⟨i, o, h1, h2, h3⟩
      rcases hop' i _ o h1 h2 with ⟨g1, g2⟩ | ⟨-, -, -, g, -⟩
      · exact ⟨i, o, by rw [hcnt]; exact g1, g2, h3⟩
      · rw [g] at h3; cases h3
    · rintro ⟨i, o, h1, h2, h3⟩
      rw [hcnt] at h1
      have := old_op (gen := c.gen) hlen h1 h2
      exact ⟨i, o, this.1, this.2, h3⟩
  · intro j s
    constructor
    · rintro ⟨i, o, h1, h2, h3⟩
      rcases hop' i _ o h1 h2 with ⟨g1, g2⟩ | ⟨-, -, -, -, g⟩
      · exact ⟨i, o, by rw [hcnt]; exact g1, g2, h3⟩
      · rw [g] at h3; cases h3
    · rintro ⟨i, o, h1, h2, h3⟩
      rw [hcnt] at h1
      have := old_op (gen := c.gen) hlen h1 h2
      exact ⟨i, o, this.1, this.2, h3⟩

/-! ### Messages -/

theorem outgoing_length (H : Halo) (f : List Elem) (r s : Nat) : (H.outgoing f r s).length = ((H.sendMap r).getD s []).length := by
  simp [outgoing]

theorem outgoing_size (hF : H.Fits) {k r s : Nat} (hk : k < H.N) (hr : r < H.P) (hs : s < H.P) :
    ∀ v ∈ H.outgoing (H.state k r (H.ex k).src) r s, v.length = (H.ex k).size := by
  intro v hv
  simp only [outgoing, List.mem_map] at hv
  obtain ⟨i, hi, rfl⟩ := hv
  exact (hF.sends k hk r hr s hs i hi).2

theorem msg_length (hF : H.Fits) {k r s : Nat} (hk : k < H.N) (hr : r < H.P) (hs : s < H.P) :
    (H.msg k r s).length = (H.ex k).size * ((H.recvMap s).getD r []).length := by
  unfold msg
  rw [List.length_flatten, ← hF.counts r hr s hs, ← outgoing_length H (H.state k r (H.ex k).src)]
  have := outgoing_size hF hk hr hs
  generalize H.outgoing (H.state k r (H.ex k).src) r s = l at this
  induction l with
  | nil => simp
  | cons x l ih =>
    rw [List.map_cons, List.sum_cons, ih fun v hv => this v (List.mem_cons_of_mem _ hv), this x (List.mem_cons_self ..), List.length_cons]
    ring

/-! ### Finalising an exchange -/

/-- When all requests are complete, the receive buffer holds what the other ranks have sent. -/
theorem received_bytes (hF : H.Fits) {r : Nat} (hr : r < H.P) {x : HRank} (h : H.RankInv r x) (ho : x.opened = true) {b : FullBuf} (hb : H.Open r x b)
    (hd : ∀ i, some i ∈ b.recv.request → opDone x.proc.ops i = true) (s : Nat) (hs : s < H.P) :
    slice b.recv.bytes (partOff (partSizes (H.recvMap r)) (H.ex x.pc).size s) ((H.ex x.pc).size * ((H.recvMap r).getD s []).length)
      = (H.outgoing (H.state x.pc s (H.ex x.pc).src) s r).flatten := by
  have hcnt : x.count = x.pc + 1 := by simp [HRank.count, ho]
  by_cases hz : ((H.recvMap r).getD s []).length = 0
  · have : H.outgoing (H.state x.pc s (H.ex x.pc).src) s r = [] := by
      rw [← List.length_eq_zero_iff, outgoing_length, hF.counts s hs r hr, hz]
    rw [this, hz]
    simp [slice]
  · have hmem : (⟨x.pc, false, s⟩ : OpKey) ∈ H.keys r x.count := by
      rw [mem_keys, hcnt]
      exact ⟨Nat.lt_succ_self _, by simp only [Halo.map]; rw [if_neg (by simp), hF.recvLen r hr]; exact hs, by simpa [Halo.map] using hz⟩
    obtain ⟨i, hi⟩ := find_key hmem
    obtain ⟨o, hio⟩ := op_at h hi
    have : o.done = true := by
      rcases hb.recvHandles i s hi with hh | hh
      · obtain ⟨o', g, g'⟩ := opDone_iff.1 (hd i hh)
        rw [hio] at g; cases g; exact g'
      · obtain ⟨o', g, g'⟩ := opDone_iff.1 hh
        rw [hio] at g; cases g; exact g'
    exact hb.recvBytes s hs i o hi hio this

theorem step_finalise (hF : H.Fits) {w : HWorld} (h : H.Inv w) {r : Nat} (hr : r < H.P) (ho : (w r).opened = true) :
    ((w r).proc.finaliseComm (H.ex (w r).pc).size ((w r).fields (H.ex (w r).pc).dst) (H.ex (w r).pc).name = .ok none ∧
      ∃ (i : Nat) (κ : OpKey) (o : MpiOp), (H.keys r (w r).count)[i]? = some κ ∧ (w r).proc.ops[i]? = some o ∧ κ.round = (w r).pc ∧ o.done = false) ∨
    ∃ f pr, (w r).proc.finaliseComm (H.ex (w r).pc).size ((w r).fields (H.ex (w r).pc).dst) (H.ex (w r).pc).name = .ok (some (f, pr)) ∧
      pr.ops = (w r).proc.ops ∧
      H.Inv (Function.update w r ⟨(w r).pc + 1, false, (H.ex (w r).pc).post r (Function.update (w r).fields (H.ex (w r).pc).dst f), pr⟩) := by
  have hR := h.rank r hr
  have hcnt : (w r).count = (w r).pc + 1 := by simp [HRank.count, ho]
  have hN : (w r).pc < H.N := by have := hR.pcLe; omega
  have hfld : (w r).fields = (H.ex (w r).pc).mid r (H.state (w r).pc r) := by have := hR.fields; rw [ho] at this; simpa using this
  rcases hR.state with ⟨hop, -⟩ | ⟨-, b, hb⟩
  · rw [ho] at hop; cases hop
  rcases finaliseComm_ok hR.has (hF.sendLen r hr) (hF.recvLen r hr) (by omega) hb.busy (field := (w r).fields (H.ex (w r).pc).dst)
    (fun s => H.outgoing (H.state (w r).pc s (H.ex (w r).pc).src) s r)
    (fun s hs => by rw [outgoing_length, hF.counts s hs r hr])
    (fun s hs => outgoing_size hF hN hs hr)
    (fun _ hd s hs => received_bytes hF hr hR ho hb hd s hs)
    (by rw [hfld]; exact fun s hs => hF.recvs _ hN r hr s hs) with ⟨e, hn⟩ | ⟨c, e, hd, hc, hi, hne, hg⟩
  · refine .inl ⟨e, ?_⟩
    rw [not_and_or] at hn
    rcases hn with hn | hn
    · push Not at hn
      obtain ⟨i, h1, h2⟩ := hn
      obtain ⟨s, h3⟩ := hb.sendOnly i h1
      obtain ⟨o, h4⟩ := op_at hR h3
      refine ⟨i, _, o, h3, h4, rfl, ?_⟩
      cases hdn : o.done with
      | false => rfl
      | true => exact absurd (opDone_iff.2 ⟨o, h4, hdn⟩) h2
    · push Not at hn
      obtain ⟨i, h1, h2⟩ := hn
      obtain ⟨s, h3⟩ := hb.recvOnly i h1
      obtain ⟨o, h4⟩ := op_at hR h3
      refine ⟨i, _, o, h3, h4, rfl, ?_⟩
      cases hdn : o.done with
      | false => rfl
      | true => exact absurd (opDone_iff.2 ⟨o, h4, hdn⟩) h2
  · refine .inr ⟨_, _, e, rfl, ?_⟩
    have hcnt' : ∀ y : HRank, y.opened = false → y.pc = (w r).pc + 1 → y.count = (w r).count := by
      intro y h1 h2; simp [HRank.count, h1, h2, ho]
    refine h.update ⟨hc, ?_, ?_, ?_, ?_, ?_, ?_, ?_, .inl ⟨rfl, hi, fun _ => hne⟩⟩ (matched_congr (hcnt' _ rfl rfl) rfl) (received_congr (hcnt' _ rfl rfl) rfl)
    · rw [hcnt' _ rfl rfl]; exact hR.pcLe
    · simp only [Bool.false_eq_true, if_false]
      rw [hfld]
      rfl
    · rw [hcnt' _ rfl rfl]; exact hR.len
    · rw [hcnt' _ rfl rfl]
      simp only [hg]
      exact hR.posted
    · rw [hcnt' _ rfl rfl]
      intro i κ o h1 h2 h3
      by_cases hlt : κ.round < (w r).pc
      · exact hR.past i κ o h1 h2 hlt
      · have he : κ.round = (w r).pc := by simp only at h3; omega
        obtain ⟨a, d, s⟩ := κ
        simp only at he
        subst he
        have hdone : opDone (w r).proc.ops i = true := by
          cases d with
          | true => exact (hb.sendHandles i s h1).elim (hd.1 i) id
          | false => exact (hb.recvHandles i s h1).elim (hd.2 i) id
        obtain ⟨o', g, g'⟩ := opDone_iff.1 hdone
        have h2 : (w r).proc.ops[i]? = some o := h2
        rw [h2] at g; cases g; exact g'
    · rw [hcnt' _ rfl rfl]; exact hR.pay
    · rw [hcnt' _ rfl rfl]; exact hR.read

end Halo
end NeoFOAM
