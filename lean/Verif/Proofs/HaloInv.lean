import Verif.Proofs.HaloProc

/-!
# Invariants of halo exchanges
-/
namespace NeoFOAM

/-- Which operation: exchange, direction and other rank. -/
structure OpKey where
  round : Nat
  isSend : Bool
  peer : Nat
  deriving DecidableEq

/-- The map for a direction. -/
def Halo.map (H : Halo) (r : Nat) (isSend : Bool) : List (List Nat) := if isSend then H.sendMap r else H.recvMap r

/-- The operations of one exchange, in the order they are posted. -/
def Halo.roundKeys (H : Halo) (r j : Nat) : List OpKey :=
  (activeRanks (partSizes (H.sendMap r))).map (fun s => ⟨j, true, s⟩) ++ (activeRanks (partSizes (H.recvMap r))).map (fun s => ⟨j, false, s⟩)

/-- The operations of the first `n` exchanges. -/
def Halo.keys (H : Halo) (r n : Nat) : List OpKey := (List.range n).flatMap (H.roundKeys r)

theorem Halo.keys_succ (H : Halo) (r n : Nat) : H.keys r (n + 1) = H.keys r n ++ H.roundKeys r n := by
  simp [Halo.keys, List.range_succ]

theorem Halo.mem_roundKeys {H : Halo} {r j : Nat} {κ : OpKey} :
    κ ∈ H.roundKeys r j ↔ κ.round = j ∧ κ.peer < (H.map r κ.isSend).length ∧ ((H.map r κ.isSend).getD κ.peer []).length ≠ 0 := by
  unfold Halo.roundKeys
  simp only [List.mem_append, List.mem_map, mem_activeRanks, length_partSizes, partSizes_getD]
  obtain ⟨a, b, c⟩ := κ
  constructor
  · rintro (⟨s, h, e⟩ | ⟨s, h, e⟩) <;> cases e <;> exact ⟨rfl, h⟩
  · rintro ⟨rfl, h⟩
    cases b with
    | true => exact .inl ⟨c, h, rfl⟩
    | false => exact .inr ⟨c, h, rfl⟩

theorem Halo.mem_keys {H : Halo} {r n : Nat} {κ : OpKey} :
    κ ∈ H.keys r n ↔ κ.round < n ∧ κ.peer < (H.map r κ.isSend).length ∧ ((H.map r κ.isSend).getD κ.peer []).length ≠ 0 := by
  unfold Halo.keys
  simp only [List.mem_flatMap, List.mem_range, Halo.mem_roundKeys]
  constructor
  · rintro ⟨j, hj, rfl, h⟩; exact ⟨hj, h⟩
  · rintro ⟨hj, h⟩; exact ⟨_, hj, rfl, h⟩

theorem activeRanks_nodup (sizes : List Nat) : (activeRanks sizes).Nodup := List.Nodup.filter _ List.nodup_range

theorem Halo.roundKeys_nodup (H : Halo) (r j : Nat) : (H.roundKeys r j).Nodup := by
  unfold Halo.roundKeys
  refine List.nodup_append.2 ⟨?_, ?_, ?_⟩
  · exact (activeRanks_nodup _).map (fun a b h => by injection h)
  · exact (activeRanks_nodup _).map (fun a b h => by injection h)
  · intro a ha b hb e
    simp only [List.mem_map] at ha hb
    obtain ⟨_, _, rfl⟩ := ha
    obtain ⟨_, _, rfl⟩ := hb
    cases e

theorem Halo.keys_nodup (H : Halo) (r n : Nat) : (H.keys r n).Nodup := by
  induction n with
  | zero => simp [Halo.keys]
  | succ n ih =>
    rw [Halo.keys_succ]
    refine List.nodup_append.2 ⟨ih, H.roundKeys_nodup r n, ?_⟩
    rintro a ha b hb rfl
    have h1 := (Halo.mem_keys.1 ha).1
    have h2 := (Halo.mem_roundKeys.1 hb).1
    omega

theorem Halo.keys_sorted (H : Halo) (r n : Nat) : (H.keys r n).Pairwise (fun a b => a.round ≤ b.round) := by
  induction n with
  | zero => simp [Halo.keys]
  | succ n ih =>
    rw [Halo.keys_succ]
    refine List.pairwise_append.2 ⟨ih, ?_, ?_⟩
    · refine List.pairwise_of_forall_mem_list ?_
      intro a ha b hb
      have h1 := (Halo.mem_roundKeys.1 ha).1
      have h2 := (Halo.mem_roundKeys.1 hb).1
      omega
    · intro a ha b hb
      have h1 := (Halo.mem_keys.1 ha).1
      have h2 := (Halo.mem_roundKeys.1 hb).1
      omega

/-- An earlier exchange was posted earlier. -/
theorem Halo.keys_lt {H : Halo} {r n i j : Nat} {a b : OpKey} (hi : (H.keys r n)[i]? = some a) (hj : (H.keys r n)[j]? = some b)
    (h : a.round < b.round) : i < j := by
  obtain ⟨hi', ei⟩ := List.getElem?_eq_some_iff.1 hi
  obtain ⟨hj', ej⟩ := List.getElem?_eq_some_iff.1 hj
  rcases Nat.lt_trichotomy i j with h1 | h1 | h1
  · exact h1
  · subst h1; rw [ei] at ej; subst ej; omega
  · have := List.pairwise_iff_getElem.1 (H.keys_sorted r n) j i hj' hi' h1
    rw [ei, ej] at this
    omega

theorem Halo.keys_le {H : Halo} {r n i j : Nat} {a b : OpKey} (hi : (H.keys r n)[i]? = some a) (hj : (H.keys r n)[j]? = some b)
    (h : i < j) : a.round ≤ b.round := by
  obtain ⟨hi', ei⟩ := List.getElem?_eq_some_iff.1 hi
  obtain ⟨hj', ej⟩ := List.getElem?_eq_some_iff.1 hj
  have := List.pairwise_iff_getElem.1 (H.keys_sorted r n) i j hi' hj' h
  rw [ei, ej] at this
  exact this

/-- Each operation has one place. -/
theorem Halo.keys_inj {H : Halo} {r n i j : Nat} {a : OpKey} (hi : (H.keys r n)[i]? = some a) (hj : (H.keys r n)[j]? = some a) : i = j := by
  obtain ⟨hi', ei⟩ := List.getElem?_eq_some_iff.1 hi
  obtain ⟨hj', ej⟩ := List.getElem?_eq_some_iff.1 hj
  exact (List.Nodup.getElem_inj_iff (H.keys_nodup r n)).1 (ei.trans ej.symm)

/-- Number of exchanges started. -/
def HRank.count (x : HRank) : Nat := if x.opened then x.pc + 1 else x.pc

/-- The bytes rank `r` sends to rank `s` in exchange `j`. -/
def Halo.msg (H : Halo) (j r s : Nat) : List UInt8 := (H.outgoing (H.state j r (H.ex j).src) r s).flatten

/-- What does not change in a posted operation. -/
structure Halo.Posted (H : Halo) (r gen : Nat) (κ : OpKey) (o : MpiOp) : Prop where
  dir : o.isSend = κ.isSend
  peer : o.peer = κ.peer
  tag : o.tag = bufferHash H.hash (H.ex κ.round).name
  buf : o.buf = ⟨gen, 0⟩
  off : o.off = partOff (partSizes (H.map r κ.isSend)) (H.ex κ.round).size κ.peer
  len : o.len = (H.ex κ.round).size * ((H.map r κ.isSend).getD κ.peer []).length

/-- An open exchange of rank `r` in buffer `b`. -/
structure Halo.Open (H : Halo) (r : Nat) (x : HRank) (b : FullBuf) : Prop where
  busy : x.proc.comm.Busy H.hash b (H.ex x.pc).size (H.ex x.pc).name
  sendBytes : ∀ s < H.P, slice b.send.bytes (partOff (partSizes (H.sendMap r)) (H.ex x.pc).size s) ((H.ex x.pc).size * ((H.sendMap r).getD s []).length)
    = H.msg x.pc r s
  recvBytes : ∀ s < H.P, ∀ (i : Nat) o, (H.keys r x.count)[i]? = some ⟨x.pc, false, s⟩ → x.proc.ops[i]? = some o → o.done = true →
    slice b.recv.bytes (partOff (partSizes (H.recvMap r)) (H.ex x.pc).size s) ((H.ex x.pc).size * ((H.recvMap r).getD s []).length) = H.msg x.pc s r
  sendHandles : ∀ (i s : Nat), (H.keys r x.count)[i]? = some ⟨x.pc, true, s⟩ → some i ∈ b.send.request ∨ opDone x.proc.ops i = true
  recvHandles : ∀ (i s : Nat), (H.keys r x.count)[i]? = some ⟨x.pc, false, s⟩ → some i ∈ b.recv.request ∨ opDone x.proc.ops i = true
  sendOnly : ∀ i, some i ∈ b.send.request → ∃ s, (H.keys r x.count)[i]? = some ⟨x.pc, true, s⟩
  recvOnly : ∀ i, some i ∈ b.recv.request → ∃ s, (H.keys r x.count)[i]? = some ⟨x.pc, false, s⟩

/-- State of rank `r`. -/
structure Halo.RankInv (H : Halo) (r : Nat) (x : HRank) : Prop where
  has : x.proc.comm.Has H.P (H.sendMap r) (H.recvMap r)
  pcLe : x.count ≤ H.N
  fields : x.fields = if x.opened then (H.ex x.pc).mid r (H.state x.pc r) else H.state x.pc r
  len : x.proc.ops.length = (H.keys r x.count).length
  posted : ∀ (i : Nat) κ o, (H.keys r x.count)[i]? = some κ → x.proc.ops[i]? = some o → H.Posted r x.proc.comm.gen κ o
  past : ∀ (i : Nat) κ o, (H.keys r x.count)[i]? = some κ → x.proc.ops[i]? = some o → κ.round < x.pc → o.done = true
  pay : ∀ (i : Nat) κ o bs, (H.keys r x.count)[i]? = some κ → x.proc.ops[i]? = some o → κ.isSend = true → o.payload = some bs →
    bs = H.msg κ.round r κ.peer
  read : ∀ (i : Nat) κ o, (H.keys r x.count)[i]? = some κ → x.proc.ops[i]? = some o → κ.isSend = true → o.done = true ∨ o.matched = true →
    o.payload.isSome = true
  state : (x.opened = false ∧ x.proc.comm.Idle H.hash ∧ (0 < x.pc → x.proc.comm.buffers ≠ [])) ∨ (x.opened = true ∧ ∃ b, H.Open r x b)

/-- The message of exchange `j` to `s` has been received. -/
def Halo.Matched (H : Halo) (r : Nat) (x : HRank) (j s : Nat) : Prop :=
  ∃ (i : Nat) (o : MpiOp), (H.keys r x.count)[i]? = some ⟨j, true, s⟩ ∧ x.proc.ops[i]? = some o ∧ o.matched = true

/-- The receive of exchange `j` from `s` is complete. -/
def Halo.Received (H : Halo) (r : Nat) (x : HRank) (j s : Nat) : Prop :=
  ∃ (i : Nat) (o : MpiOp), (H.keys r x.count)[i]? = some ⟨j, false, s⟩ ∧ x.proc.ops[i]? = some o ∧ o.done = true

/-- State of all ranks. -/
structure Halo.Inv (H : Halo) (w : HWorld) : Prop where
  rank : ∀ r < H.P, H.RankInv r (w r)
  link : ∀ r < H.P, ∀ s < H.P, ∀ j, H.Matched r (w r) j s ↔ H.Received s (w s) j r

namespace Halo
variable {H : Halo}

theorem op_at {r : Nat} {x : HRank} (h : H.RankInv r x) {i : Nat} {κ : OpKey} (hk : (H.keys r x.count)[i]? = some κ) :
    ∃ o, x.proc.ops[i]? = some o :=
  ⟨_, List.getElem?_eq_getElem (by rw [h.len]; exact (List.getElem?_eq_some_iff.1 hk).1)⟩

theorem key_at {r : Nat} {x : HRank} (h : H.RankInv r x) {i : Nat} {o : MpiOp} (ho : x.proc.ops[i]? = some o) :
    ∃ κ, (H.keys r x.count)[i]? = some κ :=
  ⟨_, List.getElem?_eq_getElem (by rw [← h.len]; exact (List.getElem?_eq_some_iff.1 ho).1)⟩

theorem find_key {r n : Nat} {κ : OpKey} (h : κ ∈ H.keys r n) : ∃ i : Nat, (H.keys r n)[i]? = some κ := by
  obtain ⟨i, hi, e⟩ := List.mem_iff_getElem.1 h
  exact ⟨i, by rw [List.getElem?_eq_getElem hi, e]⟩

/-- An incomplete operation belongs to the open exchange. -/
theorem current {r : Nat} {x : HRank} (h : H.RankInv r x) {i : Nat} {κ : OpKey} {o : MpiOp} (hk : (H.keys r x.count)[i]? = some κ)
    (ho : x.proc.ops[i]? = some o) (hd : o.done = false) : x.opened = true ∧ κ.round = x.pc := by
  have h1 := h.past i κ o hk ho
  have h2 := (mem_keys.1 (List.mem_of_getElem? hk)).1
  have h3 : ¬ κ.round < x.pc := fun hlt => by rw [h1 hlt] at hd; cases hd
  unfold HRank.count at h2
  cases hx : x.opened with
  | true => rw [hx] at h2; simp only [if_true] at h2; exact ⟨rfl, by omega⟩
  | false => rw [hx] at h2; simp at h2; omega

/-- A send that MPI has not read is not complete. -/
theorem unread {r : Nat} {x : HRank} (h : H.RankInv r x) {i : Nat} {κ : OpKey} {o : MpiOp} (hk : (H.keys r x.count)[i]? = some κ)
    (ho : x.proc.ops[i]? = some o) (hs : κ.isSend = true) (hp : o.payload = none) : o.done = false := by
  cases hd : o.done with
  | false => rfl
  | true => have := h.read i κ o hk ho hs (.inl hd); rw [hp] at this; cases this

theorem opDone_iff {ops : List MpiOp} {i : Nat} : opDone ops i = true ↔ ∃ o, ops[i]? = some o ∧ o.done = true := by
  unfold opDone
  cases ops[i]? <;> simp

/-- Changing an operation without completing a receive keeps the state of the rank. -/
theorem RankInv.setOp {r : Nat} {x : HRank} (h : H.RankInv r x) {i : Nat} {κ : OpKey} {o o' : MpiOp}
    (hk : (H.keys r x.count)[i]? = some κ) (ho : x.proc.ops[i]? = some o) (hst : H.Posted r x.proc.comm.gen κ o')
    (hmono : o.done = true → o'.done = true) (hrecv : κ.isSend = false → o'.done = true → o.done = true)
    (hpay : ∀ bs, κ.isSend = true → o'.payload = some bs → bs = H.msg κ.round r κ.peer)
    (hread : κ.isSend = true → o'.done = true ∨ o'.matched = true → o'.payload.isSome = true) :
    H.RankInv r { x with proc := { x.proc with ops := x.proc.ops.set i o' } } := by
  have hlt : i < x.proc.ops.length := (List.getElem?_eq_some_iff.1 ho).1
  have get : ∀ (j : Nat) (p : MpiOp), (x.proc.ops.set i o')[j]? = some p → (i = j ∧ p = o') ∨ (i ≠ j ∧ x.proc.ops[j]? = some p) := by
    intro j p hp
    rw [List.getElem?_set] at hp
    by_cases hij : i = j
    · subst hij; simp [hlt] at hp; exact .inl ⟨rfl, hp.symm⟩
    · simp [hij] at hp; exact .inr ⟨hij, hp⟩
  have keq : ∀ (j : Nat) κ', i = j → (H.keys r x.count)[j]? = some κ' → κ' = κ := by
    rintro j κ' rfl h'; rw [hk] at h'; injection h' with h'; exact h'.symm
  have hdone : ∀ j, opDone x.proc.ops j = true → opDone (x.proc.ops.set i o') j = true := by
    intro j hj
    obtain ⟨p, hp, hd⟩ := opDone_iff.1 hj
    by_cases hij : i = j
    · subst hij
      rw [ho] at hp
      cases hp
      exact opDone_iff.2 ⟨o', by rw [List.getElem?_set_self hlt], hmono hd⟩
    · exact opDone_iff.2 ⟨p, by rw [List.getElem?_set_ne hij]; exact hp, hd⟩
  refine ⟨h.has, h.pcLe, h.fields, by simp only [List.length_set]; exact h.len, ?_, ?_, ?_, ?_, ?_⟩
  · intro j κ' p hκ hp
    rcases get j p hp with ⟨hij, rfl⟩ | ⟨_, hp⟩
    · rw [keq j κ' hij hκ]; exact hst
    · exact h.posted j κ' p hκ hp
  · intro j κ' p hκ hp hlt
    rcases get j p hp with ⟨hij, rfl⟩ | ⟨_, hp⟩
    · rw [keq j κ' hij hκ] at hlt
      exact hmono (h.past i κ o hk ho hlt)
    · exact h.past j κ' p hκ hp hlt
  · intro j κ' p bs hκ hp hs hb
    rcases get j p hp with ⟨hij, rfl⟩ | ⟨_, hp⟩
    · rw [keq j κ' hij hκ] at hs ⊢; exact hpay bs hs hb
    · exact h.pay j κ' p bs hκ hp hs hb
  · intro j κ' p hκ hp hs hb
    rcases get j p hp with ⟨hij, rfl⟩ | ⟨_, hp⟩
    · rw [keq j κ' hij hκ] at hs; exact hread hs hb
    · exact h.read j κ' p hκ hp hs hb
  · rcases h.state with hi | ⟨hop, b, hb⟩
    · exact .inl hi
    · refine .inr ⟨hop, b, hb.busy, hb.sendBytes, ?_, ?_, ?_, hb.sendOnly, hb.recvOnly⟩
      · intro s hs j p hκ hp hd
        rcases get j p hp with ⟨hij, rfl⟩ | ⟨_, hp⟩
        · have := keq j _ hij hκ
          subst hij
          exact hb.recvBytes s hs i o hκ ho (hrecv (by rw [← this]) hd)
        · exact hb.recvBytes s hs j p hκ hp hd
      · exact fun j s hj => (hb.sendHandles j s hj).imp id (hdone j)
      · exact fun j s hj => (hb.recvHandles j s hj).imp id (hdone j)

/-- The effect of changing an operation on what has been matched and received. -/
theorem matched_set {r : Nat} {x : HRank} {i : Nat} {κ : OpKey} {o o' : MpiOp}
    (hk : (H.keys r x.count)[i]? = some κ) (ho : x.proc.ops[i]? = some o) (j s : Nat) :
    H.Matched r { x with proc := { x.proc with ops := x.proc.ops.set i o' } } j s ↔
      if κ = ⟨j, true, s⟩ then o'.matched = true else H.Matched r x j s := by
  have hlt : i < x.proc.ops.length := (List.getElem?_eq_some_iff.1 ho).1
  split
  · rename_i he
    subst he
    constructor
    · rintro ⟨i', p, h1, h2, h3⟩
      have := keys_inj hk h1
      subst this
      have h2 : (x.proc.ops.set i o')[i]? = some p := h2
      rw [List.getElem?_set_self hlt] at h2
      cases h2; exact h3
    · intro h; exact ⟨i, o', hk, List.getElem?_set_self hlt, h⟩
  · rename_i he
    constructor
    · rintro ⟨i', p, h1, h2, h3⟩
      have hne : i ≠ i' := by
        rintro rfl
        have h1 : (H.keys r x.count)[i]? = _ := h1
        rw [hk] at h1; injection h1 with h1; exact he h1
      have h2 : (x.proc.ops.set i o')[i']? = some p := h2
      rw [List.getElem?_set_ne hne] at h2
      exact ⟨i', p, h1, h2, h3⟩
    · rintro ⟨i', p, h1, h2, h3⟩
      have hne : i ≠ i' := by
        rintro rfl
        rw [hk] at h1; injection h1 with h1; exact he h1
      exact ⟨i', p, h1, by rw [← h2]; exact List.getElem?_set_ne hne, h3⟩

theorem received_set {r : Nat} {x : HRank} {i : Nat} {κ : OpKey} {o o' : MpiOp}
    (hk : (H.keys r x.count)[i]? = some κ) (ho : x.proc.ops[i]? = some o) (j s : Nat) :
    H.Received r { x with proc := { x.proc with ops := x.proc.ops.set i o' } } j s ↔
      if κ = ⟨j, false, s⟩ then o'.done = true else H.Received r x j s := by
  have hlt : i < x.proc.ops.length := (List.getElem?_eq_some_iff.1 ho).1
  split
  · rename_i he
    subst he
    constructor
    · rintro ⟨i', p, h1, h2, h3⟩
      have := keys_inj hk h1
      subst this
      have h2 : (x.proc.ops.set i o')[i]? = some p := h2
      rw [List.getElem?_set_self hlt] at h2
      cases h2; exact h3
    · intro h; exact ⟨i, o', hk, List.getElem?_set_self hlt, h⟩
  · rename_i he
    constructor
    · rintro ⟨i', p, h1, h2, h3⟩
      have hne : i ≠ i' := by
        rintro rfl
        have h1 : (H.keys r x.count)[i]? = _ := h1
        rw [hk] at h1; injection h1 with h1; exact he h1
      have h2 : (x.proc.ops.set i o')[i']? = some p := h2
      rw [List.getElem?_set_ne hne] at h2
      exact ⟨i', p, h1, h2, h3⟩
    · rintro ⟨i', p, h1, h2, h3⟩
      have hne : i ≠ i' := by
        rintro rfl
        rw [hk] at h1; injection h1 with h1; exact he h1
      exact ⟨i', p, h1, by rw [← h2]; exact List.getElem?_set_ne hne, h3⟩

end Halo
end NeoFOAM
