import Verif.Proofs.HaloRun

/-!
# Halo exchanges: messages keep the invariants
-/
namespace NeoFOAM
namespace Halo
variable {H : Halo}

theorem Open.sendsHold {r : Nat} {x : HRank} (h : H.RankInv r x) {b : FullBuf} (hb : H.Open r x b) :
    b.send.Holds H.hash (partSizes (H.sendMap r)) (H.ex x.pc).size (some (H.ex x.pc).name) := by
  have := hb.busy.send; rw [h.has.send] at this; exact this

theorem Open.recvsHold {r : Nat} {x : HRank} (h : H.RankInv r x) {b : FullBuf} (hb : H.Open r x b) :
    b.recv.Holds H.hash (partSizes (H.recvMap r)) (H.ex x.pc).size (some (H.ex x.pc).name) := by
  have := hb.busy.recv; rw [h.has.recv] at this; exact this

/-- The part of a rank lies in the buffer. -/
theorem part_fits {hash : String → Nat} {b : HalfBuf} {map : List (List Nat)} {t : Nat} {o : Option String} (h : b.Holds hash (partSizes map) t o)
    {s : Nat} (hs : s < map.length) : partOff (partSizes map) t s + t * (map.getD s []).length ≤ b.bytes.length := by
  have h1 := partOff_end (sizes := partSizes map) (t := t) (s := s) (by rw [length_partSizes]; exact hs)
  rw [partSizes_getD] at h1
  have := h.fits
  omega

theorem matched_set_same {r : Nat} {x : HRank} {i : Nat} {κ : OpKey} {o o' : MpiOp} (hk : (H.keys r x.count)[i]? = some κ) (ho : x.proc.ops[i]? = some o)
    (he : o'.matched = o.matched) (j s : Nat) : H.Matched r { x with proc := { x.proc with ops := x.proc.ops.set i o' } } j s ↔ H.Matched r x j s := by
  rw [matched_set hk ho]
  split
  · rename_i e
    subst e
    rw [he]
    constructor
    · exact fun h => ⟨i, o, hk, ho, h⟩
    · rintro ⟨i', p, h1, h2, h3⟩
      have := keys_inj hk h1; subst this
      rw [ho] at h2; cases h2; exact h3
  · rfl

theorem received_set_same {r : Nat} {x : HRank} {i : Nat} {κ : OpKey} {o o' : MpiOp} (hk : (H.keys r x.count)[i]? = some κ) (ho : x.proc.ops[i]? = some o)
    (he : κ.isSend = true ∨ o'.done = o.done) (j s : Nat) :
    H.Received r { x with proc := { x.proc with ops := x.proc.ops.set i o' } } j s ↔ H.Received r x j s := by
  rw [received_set hk ho]
  split
  · rename_i e
    subst e
    rcases he with he | he
    · cases he
    rw [he]
    constructor
    · exact fun h => ⟨i, o, hk, ho, h⟩
    · rintro ⟨i', p, h1, h2, h3⟩
      have := keys_inj hk h1; subst this
      rw [ho] at h2; cases h2; exact h3
  · rfl

theorem step_capture {w : HWorld} (h : H.Inv w) (hF : H.Fits) {r i : Nat} {o : MpiOp} (hr : r < H.P) (hi : (w r).proc.ops[i]? = some o)
    (hs : o.isSend = true) (hp : o.payload = none) :
    ∃ bs, (w r).proc.capture i = .ok { (w r).proc with ops := (w r).proc.ops.set i { o with payload := some bs } } ∧
      H.Inv (Function.update w r { w r with proc := { (w r).proc with ops := (w r).proc.ops.set i { o with payload := some bs } } }) := by
  have hR := h.rank r hr
  obtain ⟨κ, hk⟩ := key_at hR hi
  have hpo := hR.posted i κ o hk hi
  have hκ : κ.isSend = true := by rw [← hpo.dir]; exact hs
  obtain ⟨hop, hrd⟩ := current hR hk hi (unread hR hk hi hκ hp)
  rcases hR.state with ⟨hc, -⟩ | ⟨-, b, hb⟩
  · rw [hop] at hc; cases hc
  have hm := (mem_keys.1 (List.mem_of_getElem? hk)).2
  have hmap : H.map r κ.isSend = H.sendMap r := by rw [hκ]; rfl
  rw [hmap] at hm
  have hpeer : κ.peer < H.P := by rw [← hF.sendLen r hr]; exact hm.1
  have hlt : i < (w r).proc.ops.length := (List.getElem?_eq_some_iff.1 hi).1
  have hfit := part_fits (hb.sendsHold hR) hm.1
  refine ⟨H.msg (w r).pc r κ.peer, ?_, ?_⟩
  · unfold Proc.capture
    rw [rd_eq_ok_iff.2 hi, Res.ok_bind]
    simp only [Communicator.deref, hpo.buf, if_true, hb.busy.bufs]
    rw [show rd [b] 0 = .ok b from rfl, Res.ok_bind, hpo.off, hpo.len, hmap, hrd, getBytes_ok hfit, Res.ok_bind, hb.sendBytes _ hpeer, wr_ok hlt]
    rfl
  · refine h.update (hR.setOp hk hi ⟨hpo.dir, hpo.peer, hpo.tag, hpo.buf, hpo.off, hpo.len⟩ id (fun _ => id) ?_ (fun _ _ => rfl))
      (matched_set_same hk hi rfl) (received_set_same hk hi (.inr rfl))
    intro bs _ hbs
    cases hbs
    rw [hrd]

theorem step_sent {w : HWorld} (h : H.Inv w) {r i : Nat} {o : MpiOp} (hr : r < H.P) (hi : (w r).proc.ops[i]? = some o)
    (hs : o.isSend = true) (hp : o.payload.isSome = true) :
    wr (w r).proc.ops i { o with done := true } = .ok ((w r).proc.ops.set i { o with done := true }) ∧
      H.Inv (Function.update w r { w r with proc := { (w r).proc with ops := (w r).proc.ops.set i { o with done := true } } }) := by
  have hR := h.rank r hr
  obtain ⟨κ, hk⟩ := key_at hR hi
  have hpo := hR.posted i κ o hk hi
  have hκ : κ.isSend = true := by rw [← hpo.dir]; exact hs
  refine ⟨wr_ok (List.getElem?_eq_some_iff.1 hi).1, ?_⟩
  refine h.update (hR.setOp hk hi ⟨hpo.dir, hpo.peer, hpo.tag, hpo.buf, hpo.off, hpo.len⟩ (fun _ => rfl) ?_ ?_ (fun _ _ => hp))
    (matched_set_same hk hi rfl) (received_set_same hk hi (.inl hκ))
  · intro h'; rw [hκ] at h'; cases h'
  · exact fun bs h1 h2 => hR.pay i κ o bs hk hi h1 h2

/-- A message and the receive it is delivered to belong to the same exchange. -/
theorem same_round {w : HWorld} (h : H.Inv w) (hF : H.Fits) {r s i j : Nat} {o o' : MpiOp} {tag : Int} (hr : r < H.P) (hs : s < H.P)
    (h1 : FirstOp (w r).proc.ops (·.isMessage s tag) i o) (h2 : FirstOp (w s).proc.ops (·.isReceive r tag) j o') :
    (H.keys r (w r).count)[i]? = some ⟨(w s).pc, true, s⟩ ∧ (H.keys s (w s).count)[j]? = some ⟨(w s).pc, false, r⟩ ∧ (w s).opened = true := by
  have hR := h.rank r hr
  have hS := h.rank s hs
  obtain ⟨hi, ⟨ms, mp, mt, mm⟩, hfirst⟩ := h1
  obtain ⟨hj, ⟨rs, rp, rt, rdn⟩, -⟩ := h2
  obtain ⟨κ, hk⟩ := key_at hR hi
  obtain ⟨κ', hk'⟩ := key_at hS hj
  have hpo := hR.posted i κ o hk hi
  have hpo' := hS.posted j κ' o' hk' hj
  obtain ⟨hop, hrd⟩ := current hS hk' hj rdn
  have e1 : κ = ⟨κ.round, true, s⟩ := by
    have d := hpo.dir.symm.trans ms
    have p := hpo.peer.symm.trans mp
    obtain ⟨a, d', p'⟩ := κ
    simp only at d p
    rw [d, p]
  have e2 : κ' = ⟨(w s).pc, false, r⟩ := by
    have d := hpo'.dir.symm.trans rs
    have p := hpo'.peer.symm.trans rp
    obtain ⟨a, d', p'⟩ := κ'
    simp only at d p hrd
    rw [d, p, hrd]
  rw [e1] at hk
  rw [e2] at hk'
  have hm := mem_keys.1 (List.mem_of_getElem? hk)
  have hm' := mem_keys.1 (List.mem_of_getElem? hk')
  have notrec : ¬ H.Received s (w s) (w s).pc r := by
    rintro ⟨j', p, g1, g2, g3⟩
    have := keys_inj hk' g1; subst this
    rw [hj] at g2; cases g2
    rw [g3] at rdn; cases rdn
  have hround : κ.round = (w s).pc := by
    rcases Nat.lt_trichotomy κ.round (w s).pc with hlt | he | hgt
    · exfalso
      have hmem : (⟨κ.round, false, r⟩ : OpKey) ∈ H.keys s (w s).count := mem_keys.2 ⟨lt_trans hlt hm'.1, hm'.2⟩
      obtain ⟨j', g1⟩ := find_key hmem
      obtain ⟨p, g2⟩ := op_at hS g1
      have g3 := hS.past j' _ p g1 g2 hlt
      obtain ⟨i', p', k1, k2, k3⟩ := (h.link r hr s hs κ.round).2 ⟨j', p, g1, g2, g3⟩
      have := keys_inj hk k1; subst this
      rw [hi] at k2; cases k2
      rw [k3] at mm; cases mm
    · exact he
    · exfalso
      have hmem : (⟨(w s).pc, true, s⟩ : OpKey) ∈ H.keys r (w r).count := mem_keys.2 ⟨lt_trans hgt hm.1, hm.2⟩
      obtain ⟨i', g1⟩ := find_key hmem
      obtain ⟨p, g2⟩ := op_at hR g1
      have hlt := keys_lt g1 hk hgt
      have hpo2 := hR.posted i' _ p g1 g2
      have : p.matched = true := by
        cases hpm : p.matched with
        | true => rfl
        | false =>
          refine absurd ⟨hpo2.dir, hpo2.peer, ?_, hpm⟩ (hfirst i' hlt p g2)
          rw [hpo2.tag, ← rt, hpo'.tag, hrd]
      exact notrec ((h.link r hr s hs _).1 ⟨i', p, g1, g2, this⟩)
  rw [hround] at hk
  exact ⟨hk, hk', hop⟩

/-- Receiving a message keeps the state of the rank. -/
theorem accept_ok (hF : H.Fits) {s : Nat} (hs : s < H.P) {x : HRank} (h : H.RankInv s x) {r j : Nat} {o' : MpiOp} (hr : r < H.P)
    (hk : (H.keys s x.count)[j]? = some ⟨x.pc, false, r⟩) (hj : x.proc.ops[j]? = some o') (hop : x.opened = true) :
    ∃ pr, x.proc.accept j (H.msg x.pc r s) = .ok pr ∧ pr.ops = x.proc.ops.set j { o' with done := true } ∧ H.RankInv s { x with proc := pr } := by
  have hpo := h.posted j _ o' hk hj
  have hcnt : x.count = x.pc + 1 := by simp [HRank.count, hop]
  have hN : x.pc < H.N := by have := h.pcLe; omega
  rcases h.state with ⟨hc, -⟩ | ⟨-, b, hb⟩
  · rw [hop] at hc; cases hc
  have hmap : H.map s false = H.recvMap s := rfl
  have hoff := hpo.off
  have hlen := hpo.len
  simp only [hmap] at hoff hlen
  have hml := msg_length hF hN hr hs
  have hrl : r < (H.recvMap s).length := by rw [hF.recvLen s hs]; exact hr
  have hfit := part_fits (hb.recvsHold h) hrl
  have hlt : j < x.proc.ops.length := (List.getElem?_eq_some_iff.1 hj).1
  obtain ⟨new, e1, e2, e3, e4⟩ := putBytes_ok (bytes := b.recv.bytes) (pos := o'.off) (e := H.msg x.pc r s) (by rw [hoff, hml]; exact hfit)
  refine ⟨⟨{ x.proc.comm with buffers := [⟨b.send, { b.recv with bytes := new }⟩] }, x.proc.ops.set j { o' with done := true }⟩, ?_, rfl, ?_⟩
  · unfold Proc.accept
    rw [rd_eq_ok_iff.2 hj, Res.ok_bind]
    simp only [Communicator.deref, Communicator.assign, hpo.buf, if_true, hb.busy.bufs]
    rw [show rd [b] 0 = .ok b from rfl, Res.ok_bind, if_neg (by rw [hlen, hml]; omega), e1, Res.ok_bind, wr_ok hlt]
    rfl
  · have get : ∀ (i : Nat) (p : MpiOp), (x.proc.ops.set j { o' with done := true })[i]? = some p →
        (j = i ∧ p = { o' with done := true }) ∨ (j ≠ i ∧ x.proc.ops[i]? = some p) := by
      intro i p hp
      rw [List.getElem?_set] at hp
      by_cases hij : j = i
      · subst hij; simp [hlt] at hp; exact .inl ⟨rfl, hp.symm⟩
      · simp [hij] at hp; exact .inr ⟨hij, hp⟩
    have keq : ∀ (i : Nat) κ, j = i → (H.keys s x.count)[i]? = some κ → κ = ⟨x.pc, false, r⟩ := by
      rintro i κ rfl h'; rw [hk] at h'; injection h' with h'; exact h'.symm
    have hdone : ∀ i, opDone x.proc.ops i = true → opDone (x.proc.ops.set j { o' with done := true }) i = true := by
      intro i hi
      obtain ⟨p, hp, hd⟩ := opDone_iff.1 hi
      by_cases hij : j = i
      · subst hij
        exact opDone_iff.2 ⟨_, List.getElem?_set_self hlt, rfl⟩
      · exact opDone_iff.2 ⟨p, by rw [List.getElem?_set_ne hij]; exact hp, hd⟩
    refine ⟨⟨h.has.ranks, h.has.send, h.has.recv⟩, h.pcLe, h.fields, by simp only [List.length_set]; exact h.len, ?_, ?_, ?_, ?_, .inr ⟨hop, ⟨b.send, { b.recv with bytes := new }⟩, ?_⟩⟩
    · intro i κ p h1 h2
      rcases get i p h2 with ⟨hij, rfl⟩ | ⟨_, hp⟩
      · rw [keq i κ hij h1]; exact ⟨hpo.dir, hpo.peer, hpo.tag, hpo.buf, hpo.off, hpo.len⟩
      · exact h.posted i κ p h1 hp
    · intro i κ p h1 h2 hlt'
      rcases get i p h2 with ⟨hij, rfl⟩ | ⟨_, hp⟩
      · rfl
      · exact h.past i κ p h1 hp hlt'
    · intro i κ p bs h1 h2 hsd hpb
      rcases get i p h2 with ⟨hij, rfl⟩ | ⟨_, hp⟩
      · rw [keq i κ hij h1] at hsd; cases hsd
      · exact h.pay i κ p bs h1 hp hsd hpb
    · intro i κ p h1 h2 hsd hdm
      rcases get i p h2 with ⟨hij, rfl⟩ | ⟨_, hp⟩
      · rw [keq i κ hij h1] at hsd; cases hsd
      · exact h.read i κ p h1 hp hsd hdm
    · refine ⟨⟨rfl, hb.busy.entry, hb.busy.others, hb.busy.send, ?_⟩, hb.sendBytes, ?_, ?_, ?_, hb.sendOnly, hb.recvOnly⟩
      · exact hb.busy.recv.withBytes e2
      · intro s' hs' i p h1 h2 hd
        rcases get i p h2 with ⟨hij, rfl⟩ | ⟨hne, hp⟩
        · have := keq i _ hij h1
          injection this with _ _ this
          subst this
          rw [hoff, hml] at e3
          exact e3
        · have hne' : s' ≠ r := by
            rintro rfl
            exact hne (keys_inj hk h1)
          have hap := partOff_apart (sizes := partSizes (H.recvMap s)) (t := (H.ex x.pc).size) hne' (by rw [length_partSizes, hF.recvLen s hs]; exact hs')
            (by rw [length_partSizes]; exact hrl)
          rw [partSizes_getD, partSizes_getD] at hap
          have := hb.recvBytes s' hs' i p h1 hp hd
          rw [← this]
          refine e4 _ _ ?_
          rw [hoff, hml]
          exact hap
      · exact fun i s' hi => (hb.sendHandles i s' hi).imp id (hdone i)
      · exact fun i s' hi => (hb.recvHandles i s' hi).imp id (hdone i)

theorem step_deliver (hF : H.Fits) {w : HWorld} (h : H.Inv w) {r i s j : Nat} {o o' : MpiOp} {tag : Int} {bytes : List UInt8} (hr : r < H.P) (hs : s < H.P)
    (h1 : FirstOp (w r).proc.ops (·.isMessage s tag) i o) (h2 : FirstOp (w s).proc.ops (·.isReceive r tag) j o')
    (hp : o.payload = some bytes) :
    ∃ pr w', (w s).proc.accept j bytes = .ok pr ∧ w' = Function.update w s { w s with proc := pr } ∧ pr.ops = (w s).proc.ops.set j { o' with done := true } ∧
      wr (w' r).proc.ops i { o with matched := true } = .ok ((w' r).proc.ops.set i { o with matched := true }) ∧ (w' r).proc.ops[i]? = some o ∧
      H.Inv (Function.update w' r { w' r with proc := { (w' r).proc with ops := (w' r).proc.ops.set i { o with matched := true } } }) := by
  obtain ⟨hk, hk', hop⟩ := same_round h hF hr hs h1 h2
  have hR := h.rank r hr
  have hS := h.rank s hs
  have hi := h1.1
  have hj := h2.1
  have hb := hR.pay i _ o bytes hk hi rfl hp
  simp only at hb
  subst hb
  obtain ⟨pr, e, hops, hS'⟩ := accept_ok hF hs hS hr hk' hj hop
  have hltj : j < (w s).proc.ops.length := (List.getElem?_eq_some_iff.1 hj).1
  obtain ⟨w', hw'⟩ : ∃ w', w' = Function.update w s { w s with proc := pr } := ⟨_, rfl⟩
  have hws : w' s = { w s with proc := pr } := by rw [hw', Function.update_self]
  have hwo : ∀ x, x ≠ s → w' x = w x := fun x hx => by rw [hw', Function.update_of_ne hx]
  -- ranks in the intermediate state
  have hrank : ∀ x < H.P, H.RankInv x (w' x) := by
    intro x hx
    by_cases ex : x = s
    · subst ex; rw [hws]; exact hS'
    · rw [hwo x ex]; exact h.rank x hx
  have hcnt : ∀ x, (w' x).count = (w x).count := by
    intro x
    by_cases ex : x = s
    · subst ex; rw [hws]; rfl
    · rw [hwo x ex]
  -- matched and received in the intermediate state
  have key_s : ∀ jj x, H.Matched s (w' s) jj x ↔ H.Matched s (w s) jj x := by
    intro jj x
    rw [hws]
    refine (matched_congr (x := { w s with proc := { (w s).proc with ops := (w s).proc.ops.set j { o' with done := true } } }) (y := { w s with proc := pr }) rfl hops jj x).trans ?_
    rw [matched_set hk' hj, if_neg (by intro h; cases h)]
  have hM : ∀ x jj y, H.Matched x (w' x) jj y ↔ H.Matched x (w x) jj y := by
    intro x jj y
    by_cases ex : x = s
    · subst ex; exact key_s jj y
    · rw [hwo x ex]
  have hRc : ∀ x jj y, H.Received x (w' x) jj y ↔ (H.Received x (w x) jj y ∨ (x = s ∧ jj = (w s).pc ∧ y = r)) := by
    intro x jj y
    by_cases ex : x = s
    · subst ex
      rw [hws]
      refine (received_congr (x := { w x with proc := { (w x).proc with ops := (w x).proc.ops.set j { o' with done := true } } }) (y := { w x with proc := pr }) rfl hops jj y).trans ?_
      rw [received_set hk' hj]
      by_cases e' : (⟨(w x).pc, false, r⟩ : OpKey) = ⟨jj, false, y⟩
      · rw [if_pos e']
        injection e' with a1 _ a2
        simp [a1, a2]
      · rw [if_neg e']
        constructor
        · exact .inl
        · rintro (g | ⟨-, g1, g2⟩)
          · exact g
          · subst g1 g2; exact absurd rfl e'
    · rw [hwo x ex]; simp [ex]
  have hop_i : (w' r).proc.ops[i]? = some o := by
    by_cases er : r = s
    · subst er
      rw [hws]
      show pr.ops[i]? = _
      rw [hops, List.getElem?_set_ne ?_]
      · exact hi
      · rintro rfl
        rw [hk] at hk'; cases hk'
    · rw [hwo r er]; exact hi
  have hk2 : (H.keys r (w' r).count)[i]? = some ⟨(w s).pc, true, s⟩ := by rw [hcnt]; exact hk
  have hpo := (hrank r hr).posted i _ o hk2 hop_i
  have hlti : i < (w' r).proc.ops.length := (List.getElem?_eq_some_iff.1 hop_i).1
  have hnew : H.RankInv r { w' r with proc := { (w' r).proc with ops := (w' r).proc.ops.set i { o with matched := true } } } := by
    refine (hrank r hr).setOp hk2 hop_i ⟨hpo.dir, hpo.peer, hpo.tag, hpo.buf, hpo.off, hpo.len⟩ id (fun _ => id) ?_ ?_
    · exact fun bs _ hbs => (hrank r hr).pay i _ o bs hk2 hop_i rfl hbs
    · intro _ _
      show o.payload.isSome = true
      rw [hp]; rfl
  refine ⟨pr, w', e, hw', hops, wr_ok hlti, hop_i, ?_, ?_⟩
  · intro x hx
    by_cases ex : x = r
    · subst ex; rw [Function.update_self]; exact hnew
    · rw [Function.update_of_ne ex]; exact hrank x hx
  · intro x hx y hy jj
    have hM2 : H.Matched x (Function.update w' r { w' r with proc := { (w' r).proc with ops := (w' r).proc.ops.set i { o with matched := true } } } x) jj y ↔
        (H.Matched x (w x) jj y ∨ (x = r ∧ jj = (w s).pc ∧ y = s)) := by
      by_cases ex : x = r
      · subst ex
        rw [Function.update_self, matched_set hk2 hop_i]
        by_cases e' : (⟨(w s).pc, true, s⟩ : OpKey) = ⟨jj, true, y⟩
        · rw [if_pos e']
          injection e' with a1 _ a2
          exact ⟨fun _ => .inr ⟨rfl, a1.symm, a2.symm⟩, fun _ => rfl⟩
        · rw [if_neg e', hM]
          constructor
          · exact .inl
          · rintro (g | ⟨-, g1, g2⟩)
            · exact g
            · subst g1 g2; exact absurd rfl e'
      · rw [Function.update_of_ne ex, hM]; simp [ex]
    have hR2 : H.Received y (Function.update w' r { w' r with proc := { (w' r).proc with ops := (w' r).proc.ops.set i { o with matched := true } } } y) jj x ↔
        H.Received y (w' y) jj x := by
      by_cases ey : y = r
      · subst ey
        rw [Function.update_self]
        exact received_set_same hk2 hop_i (.inl rfl) jj x
      · rw [Function.update_of_ne ey]
    rw [hM2, hR2, hRc, h.link x hx y hy jj]
    constructor
    · rintro (g | ⟨g1, g2, g3⟩)
      · exact .inl g
      · exact .inr ⟨g3, g2, g1⟩
    · rintro (g | ⟨g1, g2, g3⟩)
      · exact .inl g
      · exact .inr ⟨g3, g2, g1⟩

theorem step_poll (hF : H.Fits) {w : HWorld} (h : H.Inv w) {r : Nat} (hr : r < H.P) (ho : (w r).opened = true) :
    ∃ f w', H.poll w r = .ok (f, w') ∧ H.Inv w' ∧
      (f = true ↔ ∀ (i : Nat) κ o, (H.keys r (w r).count)[i]? = some κ → (w r).proc.ops[i]? = some o → o.done = true) ∧
      (∀ x, (w' x).proc.ops = (w x).proc.ops ∧ (w' x).pc = (w x).pc ∧ (w' x).opened = (w x).opened ∧ (w' x).fields = (w x).fields) := by
  have hR := h.rank r hr
  rcases hR.state with ⟨hop, -⟩ | ⟨-, b, hb⟩
  · rw [ho] at hop; cases hop
  obtain ⟨f, q, q', e, -, l1, l2, g1, g2, g3, -⟩ := isComplete_ok hb.busy (by rw [hR.has.send, hF.sendLen r hr]; omega) (by rw [hR.has.recv, hF.recvLen r hr]; omega)
  have hmem : ∀ (q req : List (Option Nat)), q.length = req.length → (∀ (s : Nat) x, q[s]? = some x → req[s]? = some x ∨ (x = none ∧ ∃ i, req[s]? = some (some i) ∧ opDone (w r).proc.ops i = true)) →
      ∀ i, some i ∈ req → some i ∈ q ∨ opDone (w r).proc.ops i = true := by
    intro q req hl hq i hi
    obtain ⟨s, hs, es⟩ := List.mem_iff_getElem.1 hi
    rcases hq s q[s] (List.getElem?_eq_getElem (by omega)) with g | ⟨-, i', g, g'⟩
    · rw [List.getElem?_eq_getElem hs, es] at g
      injection g with g
      exact .inl (g ▸ List.getElem_mem _)
    · rw [List.getElem?_eq_getElem hs, es] at g
      injection g with g
      injection g with g
      subst g
      exact .inr g'
  have hmem' : ∀ (q req : List (Option Nat)), (∀ (s : Nat) x, q[s]? = some x → req[s]? = some x ∨ (x = none ∧ ∃ i, req[s]? = some (some i) ∧ opDone (w r).proc.ops i = true)) →
      ∀ i, some i ∈ q → some i ∈ req := by
    intro q req hq i hi
    obtain ⟨s, hs, es⟩ := List.mem_iff_getElem.1 hi
    rcases hq s (some i) (by rw [List.getElem?_eq_getElem hs, es]) with g | ⟨g, -⟩
    · exact List.mem_of_getElem? g
    · cases g
  refine ⟨f, Function.update w r { w r with proc := ⟨{ (w r).proc.comm with buffers := [⟨{ b.send with request := q }, { b.recv with request := q' }⟩] }, (w r).proc.ops⟩ },
    ?_, ?_, ?_, ?_⟩
  · unfold poll
    rw [e, Res.ok_bind]
    rfl
  · refine h.update ⟨⟨hR.has.ranks, hR.has.send, hR.has.recv⟩, hR.pcLe, hR.fields, hR.len, hR.posted, hR.past, hR.pay, hR.read,
      .inr ⟨ho, ⟨{ b.send with request := q }, { b.recv with request := q' }⟩, ?_⟩⟩ (matched_congr rfl rfl) (received_congr rfl rfl)
    refine ⟨⟨rfl, hb.busy.entry, hb.busy.others, hb.busy.send.withRequest l1, hb.busy.recv.withRequest l2⟩, hb.sendBytes, hb.recvBytes, ?_, ?_, ?_, ?_⟩
    · intro i s hi
      rcases hb.sendHandles i s hi with g | g
      · exact hmem q _ l1 g1 i g
      · exact .inr g
    · intro i s hi
      rcases hb.recvHandles i s hi with g | g
      · exact hmem q' _ l2 g2 i g
      · exact .inr g
    · exact fun i hi => hb.sendOnly i (hmem' q _ g1 i hi)
    · exact fun i hi => hb.recvOnly i (hmem' q' _ g2 i hi)
  · rw [g3]
    constructor
    · rintro ⟨a1, a2⟩ i κ o hk hi
      cases hd : o.done with
      | true => rfl
      | false =>
        obtain ⟨-, hrd⟩ := current hR hk hi hd
        obtain ⟨a, d, s⟩ := κ
        simp only at hrd
        subst hrd
        have : opDone (w r).proc.ops i = true := by
          cases d with
          | true => exact (hb.sendHandles i s hk).elim (a1 i) id
          | false => exact (hb.recvHandles i s hk).elim (a2 i) id
        obtain ⟨o'', k1, k2⟩ := opDone_iff.1 this
        rw [hi] at k1; cases k1
        rw [hd] at k2; cases k2
    · intro hall
      constructor
      · intro i hi
        obtain ⟨s, hk⟩ := hb.sendOnly i hi
        obtain ⟨o, hio⟩ := op_at hR hk
        exact opDone_iff.2 ⟨o, hio, hall i _ o hk hio⟩
      · intro i hi
        obtain ⟨s, hk⟩ := hb.recvOnly i hi
        obtain ⟨o, hio⟩ := op_at hR hk
        exact opDone_iff.2 ⟨o, hio, hall i _ o hk hio⟩
  · intro x
    by_cases ex : x = r
    · subst ex; rw [Function.update_self]; exact ⟨rfl, rfl, rfl, rfl⟩
    · rw [Function.update_of_ne ex]; exact ⟨rfl, rfl, rfl, rfl⟩

/-- **Every step of a good state goes well and leads to a good state.** -/
theorem Inv.step (hF : H.Fits) {w : HWorld} (h : H.Inv w) {sync : Bool} {res : Res HWorld} (hs : HStep H sync w res) :
    ∃ w', res = .ok w' ∧ H.Inv w' := by
  cases hs with
  | start r hr hk ho =>
    obtain ⟨pr, e, hi, -⟩ := step_start hF h hr hk ho
    exact ⟨_, by simp only [e, Res.ok_bind]; rfl, hi⟩
  | finalise r hr ho hw =>
    rcases step_finalise hF h hr ho with ⟨e, -⟩ | ⟨f, pr, e, -, hi⟩
    · exact absurd e hw
    · exact ⟨_, by simp only [e, Res.ok_bind]; rfl, hi⟩
  | capture r i o hr hi hs hp hsync =>
    obtain ⟨bs, e, hi⟩ := step_capture h hF hr hi hs hp
    exact ⟨_, by rw [e, Res.ok_bind]; rfl, hi⟩
  | deliver r i o s j o' tag bytes hr hs h1 h2 hp =>
    obtain ⟨pr, w', e, hw, -, e2, -, hi⟩ := step_deliver hF h hr hs h1 h2 hp
    subst hw
    exact ⟨_, by simp only [e, e2, Res.ok_bind]; rfl, hi⟩
  | sent r i o hr hi hs hp hd =>
    obtain ⟨e, hi⟩ := step_sent h hr hi hs hp
    exact ⟨_, by rw [e, Res.ok_bind]; rfl, hi⟩

theorem Run.inv (hF : H.Fits) {n : Nat} {w : HWorld} (h : H.Run n w) : H.Inv w := by
  induction h with
  | init => exact Inv.init
  | step _ hs ih =>
    obtain ⟨w'', e, hi⟩ := ih.step hF hs
    cases e; exact hi
  | poll _ hr ho e ih =>
    obtain ⟨f, w'', e', hi, -⟩ := step_poll hF ih hr ho
    rw [e] at e'
    cases e'
    exact hi

end Halo
end NeoFOAM
