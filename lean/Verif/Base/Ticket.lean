import Verif.Base.LMem
import Mathlib.Algebra.BigOperators.Group.Finset.Basic
import Mathlib.Data.Finset.Card
import Mathlib.Tactic.Linarith

/-!
# Kernels that hand out slots with `atomic_fetch_add`

Threads take tickets from a counter array and write into the slot the ticket names. The outcome depends
on the schedule, so these kernels are treated with an invariant over all interleavings instead of
commutation.
-/
namespace NeoFOAM
open Finset

/-- Invariant rule: if every action any thread can do next preserves `I`, every interleaving ends
normally in a state with `I` and no thread left. -/
theorem Interleave.invariant {σ : Type u} {α : Type v} (step : σ → α → Res σ)
    (I : List (List α) → σ → Prop)
    (hstep : ∀ pre a t post s, I (pre ++ (a :: t) :: post) s →
      ∃ s', step s a = .ok s' ∧ I (pre ++ t :: post) s')
    {ts : List (List α)} {l : List α} (h : Interleave ts l) :
    ∀ s, I ts s → ∃ s' ts', runActs step s l = .ok s' ∧ (∀ t ∈ ts', t = []) ∧ I ts' s' := by
  induction h with
  | done ts h => intro s hs; exact ⟨s, ts, rfl, h, hs⟩
  | step pre a t post l _ ih =>
    intro s hs
    obtain ⟨s1, h1, h2⟩ := hstep pre a t post s hs
    obtain ⟨s2, ts', r, e, h3⟩ := ih s1 h2
    exact ⟨s2, ts', by rw [runActs_cons, h1]; exact r, e, h3⟩

/-- The same for numbered threads with program counters. -/
theorem Interleave.invariant_pc {σ : Type u} {α : Type v} (step : σ → α → Res σ) (m : Nat)
    (prog : Nat → List α) (J : (Nat → Nat) → σ → Prop)
    (hstep : ∀ pc s k a, k < m → (prog k)[pc k]? = some a → J pc s →
      ∃ s', step s a = .ok s' ∧ J (Function.update pc k (pc k + 1)) s')
    {l : List α} (h : Interleave ((List.range m).map prog) l) (s : σ) (h0 : J (fun _ => 0) s) :
    ∃ s' pc, runActs step s l = .ok s' ∧ (∀ k < m, pc k = (prog k).length) ∧ J pc s' := by
  obtain ⟨s', ts', r, he, hI⟩ := Interleave.invariant step
    (fun ts s => ts.length = m ∧ ∃ pc, J pc s ∧
      ∀ k < m, ts[k]? = some ((prog k).drop (pc k)) ∧ pc k ≤ (prog k).length)
    (by
      intro pre a t post s ⟨hl, pc, hJ, hp⟩
      have hk : pre.length < m := by rw [← hl]; simp
      obtain ⟨e1, e2⟩ := hp pre.length hk
      rw [List.getElem?_append_right (by omega)] at e1
      simp only [Nat.sub_self, List.getElem?_cons_zero, Option.some.injEq] at e1
      have hlt : pc pre.length < (prog pre.length).length := by
        by_contra hc
        rw [List.drop_eq_nil_of_le (by omega)] at e1
        simp at e1
      rw [List.drop_eq_getElem_cons hlt] at e1
      injection e1 with ea et
      obtain ⟨s', hs', hJ'⟩ := hstep pc s pre.length a hk (by rw [List.getElem?_eq_getElem hlt, ea]) hJ
      refine ⟨s', hs', by simpa using hl, _, hJ', ?_⟩
      intro k hkm
      obtain ⟨f1, f2⟩ := hp k hkm
      by_cases hkp : k = pre.length
      · subst hkp
        rw [Function.update_self]
        refine ⟨?_, by omega⟩
        rw [List.getElem?_append_right (by omega)]
        simp [et]
      · rw [Function.update_of_ne hkp]
        refine ⟨?_, f2⟩
        rw [← f1]
        rcases Nat.lt_or_gt_of_ne hkp with hlt' | hgt
        · rw [List.getElem?_append_left hlt', List.getElem?_append_left hlt']
        · rw [List.getElem?_append_right (by omega), List.getElem?_append_right (by omega)]
          obtain ⟨d, hd⟩ : ∃ d, k - pre.length = d + 1 := ⟨k - pre.length - 1, by omega⟩
          rw [hd]; simp)
    h s ⟨by simp, fun _ => 0, h0, by intro k hk; simp [List.getElem?_range hk]⟩
  obtain ⟨hl, pc, hJ, hp⟩ := hI
  refine ⟨s', pc, r, ?_, hJ⟩
  intro k hk
  obtain ⟨e1, e2⟩ := hp k hk
  have := he _ (List.mem_of_getElem? e1)
  rw [List.drop_eq_nil_iff] at this
  omega

/-- The arrays of a ticket kernel: counters, slots, and slot offsets. -/
inductive TArr where
  | cnt | col | off
  deriving DecidableEq

/-- Memory of a ticket kernel; the local state of a thread is a register file. -/
abbrev TMem := LMem TArr Nat (Nat → Nat)
/-- Action of a ticket kernel. -/
abbrev TAct := LAct TArr Nat (Nat → Nat)

namespace TAct
/-- `r_j = atomic_fetch_add(&cnt[c], 1)` by thread `k`. -/
def fetchAdd (k j c : Nat) : TAct := ⟨k, fun _ => (.cnt, c), fun l x => (Function.update l j x, x + 1)⟩
/-- `r_j = cnt[c]` by thread `k`. -/
def loadCnt (k j c : Nat) : TAct := ⟨k, fun _ => (.cnt, c), fun l x => (Function.update l j x, x)⟩
/-- `cnt[c] = r_j + 1` by thread `k`. -/
def storeCnt (k j c : Nat) : TAct := ⟨k, fun _ => (.cnt, c), fun l _ => (l, l j + 1)⟩
/-- `off[i] = static_cast<uint8_t>(r_j)` by thread `k`. -/
def putOff (k j i : Nat) : TAct := ⟨k, fun _ => (.off, i), fun l _ => (l, l j % 256)⟩
/-- `col[base + r_j] = v` by thread `k`. -/
def putCol (k j base v : Nat) : TAct := ⟨k, fun l => (.col, base + l j), fun l _ => (l, v)⟩
end TAct

/-- One line of the common program of all threads; `j` numbers the requests of a thread. -/
inductive TI where
  | fetch (j : Nat) | load (j : Nat) | store (j : Nat) | off (j : Nat) | col (j : Nat)
  deriving DecidableEq

/-- Parameters: requests per thread, and cell, slot base and value of each request. -/
structure TPar where
  q : Nat
  m : Nat
  cell : Nat → Nat
  base : Nat → Nat
  val : Nat → Nat

/-- The action of line `i` in thread `k`. -/
def TI.act (P : TPar) (k : Nat) : TI → TAct
  | fetch j => TAct.fetchAdd k j (P.cell (P.q * k + j))
  | load j => TAct.loadCnt k j (P.cell (P.q * k + j))
  | store j => TAct.storeCnt k j (P.cell (P.q * k + j))
  | off j => TAct.putOff k j (P.q * k + j)
  | col j => TAct.putCol k j (P.base (P.q * k + j)) (P.val (P.q * k + j))

/-- Number of requests in `S` for cell `c`. -/
def TPar.cnt (P : TPar) (S : Finset Nat) (c : Nat) : Nat := (S.filter (P.cell · = c)).card

/-- The invariant: `tk` is the ticket of each request; `F`, `C`, `W`, `O` are the requests that have a
ticket, are counted, have written their slot, have written their offset. -/
structure TInv (P : TPar) (c0 : Nat → Nat) (n : Nat) (col0 : List Nat) (nOff : Nat) (tk : Nat → Nat)
    (F C W O : Finset Nat) (s : TMem) : Prop where
  cntLen : (s.arr .cnt).length = n
  cnt : ∀ c < n, (s.arr .cnt).getD c 0 = c0 c + P.cnt C c
  CF : C ⊆ F
  WF : W ⊆ F
  OF : O ⊆ F
  lo : ∀ r ∈ F, c0 (P.cell r) ≤ tk r
  hi : ∀ r ∈ F, tk r < c0 (P.cell r) + P.cnt F (P.cell r)
  inj : ∀ r ∈ F, ∀ r' ∈ F, P.cell r = P.cell r' → tk r = tk r' → r = r'
  colLen : (s.arr .col).length = col0.length
  colW : ∀ r ∈ W, (s.arr .col).getD (P.base r + tk r) 0 = P.val r
  colE : ∀ p, (∀ r ∈ W, p ≠ P.base r + tk r) → (s.arr .col).getD p 0 = col0.getD p 0
  offLen : (s.arr .off).length = nOff
  offO : ∀ r ∈ O, (s.arr .off).getD r 0 = tk r % 256
  loc : ∀ r ∈ F, s.loc (r / P.q) (r % P.q) = tk r

/-- Requests whose line has been executed. -/
def TPar.upTo (P : TPar) (pos : Nat → Nat) (pc : Nat → Nat) : Finset Nat :=
  (range (P.q * P.m)).filter fun r => pos (r % P.q) < pc (r / P.q)

theorem TPar.upTo_mem (P : TPar) (pos pc : Nat → Nat) (r : Nat) :
    r ∈ P.upTo pos pc ↔ r < P.q * P.m ∧ pos (r % P.q) < pc (r / P.q) := by
  simp [TPar.upTo]

theorem TPar.divmod (P : TPar) {k j : Nat} (hj : j < P.q) :
    (P.q * k + j) / P.q = k ∧ (P.q * k + j) % P.q = j := by
  have hq : 0 < P.q := by omega
  refine ⟨?_, ?_⟩
  · rw [Nat.mul_add_div hq, Nat.div_eq_of_lt hj]; simp
  · rw [Nat.mul_add_mod, Nat.mod_eq_of_lt hj]

theorem TPar.req_lt (P : TPar) {k j : Nat} (hk : k < P.m) (hj : j < P.q) : P.q * k + j < P.q * P.m := by
  have : P.q * (k + 1) ≤ P.q * P.m := Nat.mul_le_mul_left _ hk
  rw [Nat.mul_add] at this
  omega

/-- Executing line `p` of thread `k` adds the requests with that line. -/
theorem TPar.upTo_update (P : TPar) (pos pc : Nat → Nat) (k p : Nat) (hp : pc k = p) (hk : k < P.m)
    (j : Option Nat) (hj : ∀ j' < P.q, pos j' = p ↔ j = some j') (hjq : ∀ j', j = some j' → j' < P.q) :
    P.upTo pos (Function.update pc k (p + 1)) =
      match j with
      | none => P.upTo pos pc
      | some j => insert (P.q * k + j) (P.upTo pos pc) := by
  ext r
  by_cases hq : P.q = 0
  · cases j with
    | none => simp [TPar.upTo, hq]
    | some j => have := hjq j rfl; omega
  have hmod : r % P.q < P.q := Nat.mod_lt _ (by omega)
  have hr : r = P.q * (r / P.q) + r % P.q := (Nat.div_add_mod r P.q).symm
  cases j with
  | none =>
    have := hj _ hmod
    simp only [TPar.upTo_mem, Function.update_apply]
    split
    · rename_i e
      rw [e, hp]
      simp only [reduceCtorEq, iff_false] at this
      omega
    · rfl
  | some j =>
    have h1 := hj _ hmod
    have hj' := hjq j rfl
    simp only [mem_insert, TPar.upTo_mem, Function.update_apply]
    simp only [Option.some.injEq] at h1
    constructor
    · rintro ⟨h2, h3⟩
      split at h3
      · rename_i e
        by_cases h4 : pos (r % P.q) = p
        · left; rw [hr, e, ← h1.1 h4]
        · right; refine ⟨h2, ?_⟩; rw [e, hp]; omega
      · exact Or.inr ⟨h2, h3⟩
    · rintro (rfl | ⟨h2, h3⟩)
      · obtain ⟨e1, e2⟩ := P.divmod (k := k) hj'
        refine ⟨P.req_lt hk hj', ?_⟩
        rw [e1, e2, if_pos rfl, (hj j hj').2 rfl]
        omega
      · refine ⟨h2, ?_⟩
        split
        · rename_i e; rw [e, hp] at h3; omega
        · exact h3

theorem TPar.cnt_insert (P : TPar) {S : Finset Nat} {r : Nat} (h : r ∉ S) (c : Nat) :
    P.cnt (insert r S) c = P.cnt S c + if P.cell r = c then 1 else 0 := by
  unfold TPar.cnt
  rw [filter_insert]
  split
  · rw [card_insert_of_notMem (by simp [h])]
  · rfl

theorem TPar.cnt_mono (P : TPar) {S T : Finset Nat} (h : S ⊆ T) (c : Nat) : P.cnt S c ≤ P.cnt T c :=
  card_le_card (filter_subset_filter _ h)

theorem getD_set {α : Type u} (l : List α) (i j : Nat) (v d : α) (h : i < l.length) :
    (l.set i v).getD j d = if j = i then v else l.getD j d := by
  simp only [List.getD, List.getElem?_set]
  by_cases hj : j = i
  · subst hj; simp [h]
  · simp [hj, Ne.symm hj]

section steps
variable {P : TPar} {c0 : Nat → Nat} {n : Nat} {col0 : List Nat} {nOff : Nat} {tk : Nat → Nat}
  {F C W O : Finset Nat} {s : TMem}

theorem TInv.fetch (I : TInv P c0 n col0 nOff tk F C W O s) {k j : Nat} (hj : j < P.q)
    (hc : P.cell (P.q * k + j) < n) (hnF : P.q * k + j ∉ F)
    (hFC : P.cnt F (P.cell (P.q * k + j)) = P.cnt C (P.cell (P.q * k + j))) :
    ∃ s' tk', s.step (TAct.fetchAdd k j (P.cell (P.q * k + j))) = .ok s' ∧
      TInv P c0 n col0 nOff tk' (insert (P.q * k + j) F) (insert (P.q * k + j) C) W O s' := by
  set r := P.q * k + j with hr
  obtain ⟨e1, e2⟩ := P.divmod (k := k) hj
  rw [← hr] at e1 e2
  have hlen : P.cell r < (s.arr .cnt).length := by rw [I.cntLen]; exact hc
  have hnC : r ∉ C := fun h => hnF (I.CF h)
  have hval : (s.arr .cnt)[P.cell r]? = some (c0 (P.cell r) + P.cnt F (P.cell r)) := by
    have := I.cnt _ hc
    rw [List.getElem?_eq_getElem hlen]
    rw [List.getD, List.getElem?_eq_getElem hlen] at this
    rw [hFC]; simpa using this
  have hne : ∀ x ∈ F, x ≠ r := fun x hx h => hnF (h ▸ hx)
  refine ⟨_, Function.update tk r (c0 (P.cell r) + P.cnt F (P.cell r)),
    LMem.step_ok (x := TAct.fetchAdd k j (P.cell r)) hval, ?_⟩
  have tkF : ∀ x ∈ F, Function.update tk r (c0 (P.cell r) + P.cnt F (P.cell r)) x = tk x :=
    fun x hx => Function.update_of_ne (hne x hx) _ _
  constructor
  · simpa [TAct.fetchAdd] using I.cntLen
  · intro c hc'
    simp only [TAct.fetchAdd, if_true]
    rw [getD_set _ _ _ _ _ hlen, P.cnt_insert hnC]
    by_cases h : c = P.cell r
    · subst h; simp [hFC]; omega
    · have := I.cnt c hc'
      simpa [h, Ne.symm h] using this
  · exact insert_subset_insert _ I.CF
  · exact I.WF.trans (subset_insert _ _)
  · exact I.OF.trans (subset_insert _ _)
  · intro x hx
    rcases mem_insert.1 hx with rfl | hx
    · rw [Function.update_self]; omega
    · rw [tkF x hx]; exact I.lo x hx
  · intro x hx
    rcases mem_insert.1 hx with rfl | hx
    · rw [Function.update_self, P.cnt_insert hnF]; simp
    · rw [tkF x hx]
      exact lt_of_lt_of_le (I.hi x hx) (Nat.add_le_add_left (P.cnt_mono (subset_insert _ _) _) _)
  · intro x hx y hy hc' ht
    rcases mem_insert.1 hx with rfl | hx <;> rcases mem_insert.1 hy with h | hy
    · exact h.symm
    · rw [Function.update_self, tkF y hy] at ht
      have := I.hi y hy
      rw [← hc'] at this; omega
    · subst h
      rw [Function.update_self, tkF x hx] at ht
      have := I.hi x hx
      rw [hc'] at this; omega
    · rw [tkF x hx, tkF y hy] at ht
      exact I.inj x hx y hy hc' ht
  · simpa [TAct.fetchAdd] using I.colLen
  · intro x hx
    rw [tkF x (I.WF hx)]
    simpa [TAct.fetchAdd] using I.colW x hx
  · intro p hp
    have := I.colE p (fun x hx => by have := hp x hx; rwa [tkF x (I.WF hx)] at this)
    simpa [TAct.fetchAdd] using this
  · simpa [TAct.fetchAdd] using I.offLen
  · intro x hx
    rw [tkF x (I.OF hx)]
    simpa [TAct.fetchAdd] using I.offO x hx
  · intro x hx
    show (if x / P.q = k then Function.update (s.loc k) j (c0 (P.cell r) + P.cnt F (P.cell r))
      else s.loc (x / P.q)) (x % P.q) = _
    rcases mem_insert.1 hx with rfl | hx
    · rw [e1, if_pos rfl, e2, Function.update_self, Function.update_self]
    · rw [tkF x hx, ← I.loc x hx]
      split
      · rename_i h
        rw [Function.update_of_ne, h]
        intro h'
        apply hne x hx
        rw [hr, ← Nat.div_add_mod x P.q, h, h']
      · rfl

theorem TInv.load (I : TInv P c0 n col0 nOff tk F C W O s) {k j : Nat} (hj : j < P.q)
    (hc : P.cell (P.q * k + j) < n) (hnF : P.q * k + j ∉ F)
    (hFC : P.cnt F (P.cell (P.q * k + j)) = P.cnt C (P.cell (P.q * k + j))) :
    ∃ s' tk', s.step (TAct.loadCnt k j (P.cell (P.q * k + j))) = .ok s' ∧
      TInv P c0 n col0 nOff tk' (insert (P.q * k + j) F) C W O s' := by
  set r := P.q * k + j with hr
  obtain ⟨e1, e2⟩ := P.divmod (k := k) hj
  rw [← hr] at e1 e2
  have hlen : P.cell r < (s.arr .cnt).length := by rw [I.cntLen]; exact hc
  have hval : (s.arr .cnt)[P.cell r]? = some (c0 (P.cell r) + P.cnt F (P.cell r)) := by
    have := I.cnt _ hc
    rw [List.getElem?_eq_getElem hlen]
    rw [List.getD, List.getElem?_eq_getElem hlen] at this
    rw [hFC]; simpa using this
  have hne : ∀ x ∈ F, x ≠ r := fun x hx h => hnF (h ▸ hx)
  refine ⟨_, Function.update tk r (c0 (P.cell r) + P.cnt F (P.cell r)),
    LMem.step_ok (x := TAct.loadCnt k j (P.cell r)) hval, ?_⟩
  have tkF : ∀ x ∈ F, Function.update tk r (c0 (P.cell r) + P.cnt F (P.cell r)) x = tk x :=
    fun x hx => Function.update_of_ne (hne x hx) _ _
  constructor
  · simpa [TAct.loadCnt] using I.cntLen
  · intro c hc'
    simp only [TAct.loadCnt, if_true]
    rw [getD_set _ _ _ _ _ hlen]
    by_cases h : c = P.cell r
    · subst h; simp [hFC]
    · have := I.cnt c hc'
      simpa [h] using this
  · exact I.CF.trans (subset_insert _ _)
  · exact I.WF.trans (subset_insert _ _)
  · exact I.OF.trans (subset_insert _ _)
  · intro x hx
    rcases mem_insert.1 hx with rfl | hx
    · rw [Function.update_self]; omega
    · rw [tkF x hx]; exact I.lo x hx
  · intro x hx
    rcases mem_insert.1 hx with rfl | hx
    · rw [Function.update_self, P.cnt_insert hnF]; simp
    · rw [tkF x hx]
      exact lt_of_lt_of_le (I.hi x hx) (Nat.add_le_add_left (P.cnt_mono (subset_insert _ _) _) _)
  · intro x hx y hy hc' ht
    rcases mem_insert.1 hx with rfl | hx <;> rcases mem_insert.1 hy with h | hy
    · exact h.symm
    · rw [Function.update_self, tkF y hy] at ht
      have := I.hi y hy
      rw [← hc'] at this; omega
    · subst h
      rw [Function.update_self, tkF x hx] at ht
      have := I.hi x hx
      rw [hc'] at this; omega
    · rw [tkF x hx, tkF y hy] at ht
      exact I.inj x hx y hy hc' ht
  · simpa [TAct.loadCnt] using I.colLen
  · intro x hx
    rw [tkF x (I.WF hx)]
    simpa [TAct.loadCnt] using I.colW x hx
  · intro p hp
    have := I.colE p (fun x hx => by have := hp x hx; rwa [tkF x (I.WF hx)] at this)
    simpa [TAct.loadCnt] using this
  · simpa [TAct.loadCnt] using I.offLen
  · intro x hx
    rw [tkF x (I.OF hx)]
    simpa [TAct.loadCnt] using I.offO x hx
  · intro x hx
    show (if x / P.q = k then Function.update (s.loc k) j (c0 (P.cell r) + P.cnt F (P.cell r))
      else s.loc (x / P.q)) (x % P.q) = _
    rcases mem_insert.1 hx with rfl | hx
    · rw [e1, if_pos rfl, e2, Function.update_self, Function.update_self]
    · rw [tkF x hx, ← I.loc x hx]
      split
      · rename_i h
        rw [Function.update_of_ne, h]
        intro h'
        apply hne x hx
        rw [hr, ← Nat.div_add_mod x P.q, h, h']
      · rfl

theorem TInv.loc' (I : TInv P c0 n col0 nOff tk F C W O s) {k j : Nat} (hj : j < P.q)
    (hF : P.q * k + j ∈ F) : s.loc k j = tk (P.q * k + j) := by
  have := I.loc _ hF
  rwa [(P.divmod (k := k) hj).1, (P.divmod (k := k) hj).2] at this

theorem TInv.store (I : TInv P c0 n col0 nOff tk F C W O s) {k j : Nat} (hj : j < P.q)
    (hc : P.cell (P.q * k + j) < n) (hF : P.q * k + j ∈ F) (hnC : P.q * k + j ∉ C)
    (hu : tk (P.q * k + j) = c0 (P.cell (P.q * k + j)) + P.cnt C (P.cell (P.q * k + j))) :
    ∃ s', s.step (TAct.storeCnt k j (P.cell (P.q * k + j))) = .ok s' ∧
      TInv P c0 n col0 nOff tk F (insert (P.q * k + j) C) W O s' := by
  have hloc := I.loc' hj hF
  set r := P.q * k + j with hr
  have hlen : P.cell r < (s.arr .cnt).length := by rw [I.cntLen]; exact hc
  refine ⟨_, LMem.step_ok (x := TAct.storeCnt k j (P.cell r)) (List.getElem?_eq_getElem hlen), ?_⟩
  constructor
  · simpa [TAct.storeCnt] using I.cntLen
  · intro c hc'
    simp only [TAct.storeCnt, if_true]
    rw [getD_set _ _ _ _ _ hlen, P.cnt_insert hnC]
    by_cases h : c = P.cell r
    · subst h; simp [hloc, hu]; omega
    · have := I.cnt c hc'
      simpa [h, Ne.symm h] using this
  · exact insert_subset hF I.CF
  · exact I.WF
  · exact I.OF
  · exact I.lo
  · exact I.hi
  · exact I.inj
  · simpa [TAct.storeCnt] using I.colLen
  · intro x hx; simpa [TAct.storeCnt] using I.colW x hx
  · intro p hp; simpa [TAct.storeCnt] using I.colE p hp
  · simpa [TAct.storeCnt] using I.offLen
  · intro x hx; simpa [TAct.storeCnt] using I.offO x hx
  · intro x hx
    show (if x / P.q = k then s.loc k else s.loc (x / P.q)) (x % P.q) = _
    rw [← I.loc x hx]
    split
    · rename_i h; rw [h]
    · rfl

theorem TInv.off (I : TInv P c0 n col0 nOff tk F C W O s) {k j : Nat} (hj : j < P.q)
    (hF : P.q * k + j ∈ F) (hlen : P.q * k + j < nOff) :
    ∃ s', s.step (TAct.putOff k j (P.q * k + j)) = .ok s' ∧
      TInv P c0 n col0 nOff tk F C W (insert (P.q * k + j) O) s' := by
  have hloc := I.loc' hj hF
  set r := P.q * k + j with hr
  have hlen : r < (s.arr .off).length := by rw [I.offLen]; exact hlen
  refine ⟨_, LMem.step_ok (x := TAct.putOff k j r) (List.getElem?_eq_getElem hlen), ?_⟩
  constructor
  · simpa [TAct.putOff] using I.cntLen
  · intro c hc; simpa [TAct.putOff] using I.cnt c hc
  · exact I.CF
  · exact I.WF
  · exact insert_subset hF I.OF
  · exact I.lo
  · exact I.hi
  · exact I.inj
  · simpa [TAct.putOff] using I.colLen
  · intro x hx; simpa [TAct.putOff] using I.colW x hx
  · intro p hp; simpa [TAct.putOff] using I.colE p hp
  · simpa [TAct.putOff] using I.offLen
  · intro x hx
    simp only [TAct.putOff, if_true]
    rw [getD_set _ _ _ _ _ hlen]
    rcases mem_insert.1 hx with rfl | hx
    · simp [hloc]
    · split
      · rename_i h; rw [h, hloc]
      · exact I.offO x hx
  · intro x hx
    show (if x / P.q = k then s.loc k else s.loc (x / P.q)) (x % P.q) = _
    rw [← I.loc x hx]
    split
    · rename_i h; rw [h]
    · rfl

theorem TInv.col (I : TInv P c0 n col0 nOff tk F C W O s) {k j : Nat} (hj : j < P.q)
    (hF : P.q * k + j ∈ F) (hlen : P.base (P.q * k + j) + tk (P.q * k + j) < col0.length)
    (hdis : ∀ r ∈ F, P.base r + tk r = P.base (P.q * k + j) + tk (P.q * k + j) → r = P.q * k + j) :
    ∃ s', s.step (TAct.putCol k j (P.base (P.q * k + j)) (P.val (P.q * k + j))) = .ok s' ∧
      TInv P c0 n col0 nOff tk F C (insert (P.q * k + j) W) O s' := by
  have hloc := I.loc' hj hF
  set r := P.q * k + j with hr
  have hlen : P.base r + tk r < (s.arr .col).length := by rw [I.colLen]; exact hlen
  have hval : (s.arr .col)[P.base r + s.loc k j]? = some ((s.arr .col)[P.base r + tk r]) := by
    rw [hloc]; exact List.getElem?_eq_getElem hlen
  refine ⟨_, LMem.step_ok (x := TAct.putCol k j (P.base r) (P.val r)) hval, ?_⟩
  constructor
  · simpa [TAct.putCol] using I.cntLen
  · intro c hc; simpa [TAct.putCol] using I.cnt c hc
  · exact I.CF
  · exact insert_subset hF I.WF
  · exact I.OF
  · exact I.lo
  · exact I.hi
  · exact I.inj
  · simpa [TAct.putCol] using I.colLen
  · intro x hx
    simp only [TAct.putCol, if_true, hloc]
    rw [getD_set _ _ _ _ _ hlen]
    rcases mem_insert.1 hx with rfl | hx
    · simp
    · split
      · rename_i h; rw [hdis x (I.WF hx) h]
      · exact I.colW x hx
  · intro p hp
    simp only [TAct.putCol, if_true, hloc]
    rw [getD_set _ _ _ _ _ hlen, if_neg (hp r (by simp))]
    exact I.colE p (fun x hx => hp x (by simp [hx]))
  · simpa [TAct.putCol] using I.offLen
  · intro x hx; simpa [TAct.putCol] using I.offO x hx
  · intro x hx
    show (if x / P.q = k then s.loc k else s.loc (x / P.q)) (x % P.q) = _
    rw [← I.loc x hx]
    split
    · rename_i h; rw [h]
    · rfl

end steps

/-- Line where request `j` gets its ticket. -/
def posF (shape : List TI) (j : Nat) : Nat := shape.findIdx fun i => i = .fetch j ∨ i = .load j
/-- Line where request `j` is counted. -/
def posC (shape : List TI) (j : Nat) : Nat := shape.findIdx fun i => i = .fetch j ∨ i = .store j
/-- Line where request `j` writes its slot. -/
def posW (shape : List TI) (j : Nat) : Nat := shape.findIdx fun i => i = .col j
/-- Line where request `j` writes its offset. -/
def posO (shape : List TI) (j : Nat) : Nat := shape.findIdx fun i => i = .off j

/-- A line refers to a request of the thread and uses a ticket only after taking it. -/
def lineOK (q : Nat) (shape : List TI) (p : Nat) : Option TI → Prop
  | some (.fetch j) => j < q
  | some (.load j) => j < q
  | some (.store j) => j < q ∧ posF shape j < p
  | some (.off j) => j < q ∧ posF shape j < p
  | some (.col j) => j < q ∧ posF shape j < p
  | none => True

instance (q : Nat) (shape : List TI) (p : Nat) : (i : Option TI) → Decidable (lineOK q shape p i)
  | some (.fetch j) => inferInstanceAs (Decidable (j < q))
  | some (.load j) => inferInstanceAs (Decidable (j < q))
  | some (.store j) => inferInstanceAs (Decidable (j < q ∧ posF shape j < p))
  | some (.off j) => inferInstanceAs (Decidable (j < q ∧ posF shape j < p))
  | some (.col j) => inferInstanceAs (Decidable (j < q ∧ posF shape j < p))
  | none => inferInstanceAs (Decidable True)

/-- Each line occurs once, refers to a request of the thread, and uses a ticket only after taking it. -/
def ShapeOK (q : Nat) (shape : List TI) : Prop :=
  ∀ p < shape.length,
    (∀ j < q, (posF shape j = p ↔ shape[p]? = some (.fetch j) ∨ shape[p]? = some (.load j)) ∧
      (posC shape j = p ↔ shape[p]? = some (.fetch j) ∨ shape[p]? = some (.store j)) ∧
      (posW shape j = p ↔ shape[p]? = some (.col j)) ∧
      (posO shape j = p ↔ shape[p]? = some (.off j))) ∧
    lineOK q shape p shape[p]?

instance (q : Nat) (shape : List TI) : Decidable (ShapeOK q shape) := by
  unfold ShapeOK; infer_instance

/-- **Ticket kernels.** On every interleaving all accesses are in range, and afterwards the requests of
each cell hold distinct tickets `c0, c0+1, …`, the counters are advanced by the number of requests,
every slot named by a ticket holds the value of its request, and all other slots are unchanged. -/
theorem ticket_kernel (P : TPar) (shape : List TI) (hs : ShapeOK P.q shape) (c0 : Nat → Nat) (n : Nat)
    (col0 : List Nat) (nOff : Nat)
    (hmode : (∀ j < P.q, posF shape j = posC shape j) ∨
      ∀ r < P.q * P.m, ∀ r' < P.q * P.m, P.cell r = P.cell r' → r = r')
    (hcell : ∀ r < P.q * P.m, P.cell r < n)
    (hoff : ∀ j, TI.off j ∈ shape → P.q * P.m ≤ nOff)
    (hcol : ∀ j, TI.col j ∈ shape → ∀ r < P.q * P.m,
      ∀ i < c0 (P.cell r) + P.cnt (range (P.q * P.m)) (P.cell r), P.base r + i < col0.length ∧
        ∀ r' < P.q * P.m, ∀ i' < c0 (P.cell r') + P.cnt (range (P.q * P.m)) (P.cell r'),
          P.base r + i = P.base r' + i' → P.cell r = P.cell r' ∧ i = i')
    (s0 : TMem) (h1 : (s0.arr .cnt).length = n) (h2 : ∀ c < n, (s0.arr .cnt).getD c 0 = c0 c)
    (h3 : s0.arr .col = col0) (h4 : (s0.arr .off).length = nOff) {l : List TAct}
    (h : Interleave ((List.range P.m).map fun k => shape.map (TI.act P k)) l) :
    ∃ s' tk, runActs LMem.step s0 l = .ok s' ∧
      TInv P c0 n col0 nOff tk (P.upTo (posF shape) fun _ => shape.length)
        (P.upTo (posC shape) fun _ => shape.length) (P.upTo (posW shape) fun _ => shape.length)
        (P.upTo (posO shape) fun _ => shape.length) s' := by
  have hsub : ∀ pos pc, P.upTo pos pc ⊆ range (P.q * P.m) := fun pos pc => filter_subset _ _
  obtain ⟨s', pc, r, hpc, tk, hI⟩ := Interleave.invariant_pc LMem.step P.m
    (fun k => shape.map (TI.act P k))
    (fun pc s => ∃ tk, TInv P c0 n col0 nOff tk (P.upTo (posF shape) pc) (P.upTo (posC shape) pc)
      (P.upTo (posW shape) pc) (P.upTo (posO shape) pc) s)
    (by
      rintro pc s k a hk ha ⟨tk, I⟩
      have hp : pc k < shape.length := by
        by_contra hc
        rw [List.getElem?_eq_none (by simpa using hc)] at ha; simp at ha
      obtain ⟨hq, hm⟩ := hs _ hp
      rw [List.getElem?_map, List.getElem?_eq_getElem hp] at ha
      simp only [List.getElem?_eq_getElem hp] at hm hq
      simp only [Option.map_some, Option.some.injEq] at ha
      have hmem : shape[pc k] ∈ shape := List.getElem_mem hp
      have upd := fun pos (j : Option Nat) => P.upTo_update pos pc k (pc k) rfl hk j
      have hnot : ∀ (pos : Nat → Nat) (j : Nat), j < P.q → pos j = pc k → P.q * k + j ∉ P.upTo pos pc := by
        intro pos j hj hpj
        rw [P.upTo_mem, (P.divmod hj).1, (P.divmod hj).2]
        omega
      have hin : ∀ (pos : Nat → Nat) (j : Nat), j < P.q → pos j < pc k → P.q * k + j ∈ P.upTo pos pc := by
        intro pos j hj hpj
        rw [P.upTo_mem, (P.divmod hj).1, (P.divmod hj).2]
        exact ⟨P.req_lt hk hj, hpj⟩
      have hcnt : ∀ j < P.q, P.q * k + j ∉ P.upTo (posF shape) pc →
          P.cnt (P.upTo (posF shape) pc) (P.cell (P.q * k + j)) =
          P.cnt (P.upTo (posC shape) pc) (P.cell (P.q * k + j)) := by
        intro j hj hn
        rcases hmode with hm' | hm'
        · congr 1
          ext x
          rw [P.upTo_mem, P.upTo_mem, hm' _ (Nat.mod_lt _ (by omega))]
        · have h0 : P.cnt (P.upTo (posF shape) pc) (P.cell (P.q * k + j)) = 0 := by
            unfold TPar.cnt
            rw [card_eq_zero, filter_eq_empty_iff]
            intro x hx hc
            have := hm' x (mem_range.1 (hsub _ _ hx)) _ (P.req_lt hk hj) hc
            exact hn (this ▸ hx)
          have := P.cnt_mono I.CF (P.cell (P.q * k + j))
          omega
      cases hi : shape[pc k] with
      | fetch j =>
        rw [hi] at ha hm hmem; subst ha
        have hj : j < P.q := hm
        have hq' := hq j hj
        simp only [hi, true_or, iff_true, Option.some.injEq] at hq'
        obtain ⟨s', tk', e, I'⟩ := I.fetch hj (hcell _ (P.req_lt hk hj))
          (hnot _ j hj hq'.1) (hcnt j hj (hnot _ j hj hq'.1))
        refine ⟨s', e, tk', ?_⟩
        rw [upd (posF shape) (some j) (fun j' hj' => by have := (hq j' hj').1; simp only [hi] at this; simpa using this) (by rintro _ ⟨⟩; exact hj),
          upd (posC shape) (some j) (fun j' hj' => by have := (hq j' hj').2.1; simp only [hi] at this; simpa using this) (by rintro _ ⟨⟩; exact hj),
          upd (posW shape) none (fun j' hj' => by have := (hq j' hj').2.2.1; simp only [hi] at this; simpa using this) (by simp),
          upd (posO shape) none (fun j' hj' => by have := (hq j' hj').2.2.2; simp only [hi] at this; simpa using this) (by simp)]
        exact I'
      | load j =>
        rw [hi] at ha hm hmem; subst ha
        have hj : j < P.q := hm
        have hq' := hq j hj
        simp only [hi] at hq'
        have hF : posF shape j = pc k := hq'.1.2 (Or.inr trivial)
        obtain ⟨s', tk', e, I'⟩ := I.load hj (hcell _ (P.req_lt hk hj))
          (hnot _ j hj hF) (hcnt j hj (hnot _ j hj hF))
        refine ⟨s', e, tk', ?_⟩
        rw [upd (posF shape) (some j) (fun j' hj' => by have := (hq j' hj').1; simp only [hi] at this; simpa using this) (by rintro _ ⟨⟩; exact hj),
          upd (posC shape) none (fun j' hj' => by have := (hq j' hj').2.1; simp only [hi] at this; simpa using this) (by simp),
          upd (posW shape) none (fun j' hj' => by have := (hq j' hj').2.2.1; simp only [hi] at this; simpa using this) (by simp),
          upd (posO shape) none (fun j' hj' => by have := (hq j' hj').2.2.2; simp only [hi] at this; simpa using this) (by simp)]
        exact I'
      | store j =>
        rw [hi] at ha hm hmem; subst ha
        obtain ⟨hj, hlt⟩ : j < P.q ∧ posF shape j < pc k := hm
        have hq' := hq j hj
        simp only [hi] at hq'
        have hC : posC shape j = pc k := hq'.2.1.2 (Or.inr trivial)
        have hF := hin _ j hj hlt
        have hnC := hnot _ j hj hC
        have hu : tk (P.q * k + j) = c0 (P.cell (P.q * k + j)) +
            P.cnt (P.upTo (posC shape) pc) (P.cell (P.q * k + j)) := by
          rcases hmode with hm' | hm'
          · rw [hm' j hj, hC] at hlt; omega
          · have hle : P.cnt (P.upTo (posF shape) pc) (P.cell (P.q * k + j)) ≤ 1 := by
              unfold TPar.cnt
              rw [card_le_one]
              intro a ha b hb
              rw [mem_filter] at ha hb
              exact hm' a (mem_range.1 (hsub _ _ ha.1)) b (mem_range.1 (hsub _ _ hb.1)) (ha.2.trans hb.2.symm)
            have h0 : P.cnt (P.upTo (posC shape) pc) (P.cell (P.q * k + j)) = 0 := by
              unfold TPar.cnt
              rw [card_eq_zero, filter_eq_empty_iff]
              intro x hx hc
              have := hm' x (mem_range.1 (hsub _ _ hx)) _ (P.req_lt hk hj) hc
              exact hnC (this ▸ hx)
            have := I.lo _ hF
            have := I.hi _ hF
            omega
        obtain ⟨s', e, I'⟩ := I.store hj (hcell _ (P.req_lt hk hj)) hF hnC hu
        refine ⟨s', e, tk, ?_⟩
        rw [upd (posF shape) none (fun j' hj' => by have := (hq j' hj').1; simp only [hi] at this; simpa using this) (by simp),
          upd (posC shape) (some j) (fun j' hj' => by have := (hq j' hj').2.1; simp only [hi] at this; simpa using this) (by rintro _ ⟨⟩; exact hj),
          upd (posW shape) none (fun j' hj' => by have := (hq j' hj').2.2.1; simp only [hi] at this; simpa using this) (by simp),
          upd (posO shape) none (fun j' hj' => by have := (hq j' hj').2.2.2; simp only [hi] at this; simpa using this) (by simp)]
        exact I'
      | off j =>
        rw [hi] at ha hm hmem; subst ha
        obtain ⟨hj, hlt⟩ : j < P.q ∧ posF shape j < pc k := hm
        obtain ⟨s', e, I'⟩ := I.off hj (hin _ j hj hlt)
          (lt_of_lt_of_le (P.req_lt hk hj) (hoff j hmem))
        refine ⟨s', e, tk, ?_⟩
        rw [upd (posF shape) none (fun j' hj' => by have := (hq j' hj').1; simp only [hi] at this; simpa using this) (by simp),
          upd (posC shape) none (fun j' hj' => by have := (hq j' hj').2.1; simp only [hi] at this; simpa using this) (by simp),
          upd (posW shape) none (fun j' hj' => by have := (hq j' hj').2.2.1; simp only [hi] at this; simpa using this) (by simp),
          upd (posO shape) (some j) (fun j' hj' => by have := (hq j' hj').2.2.2; simp only [hi] at this; simpa using this) (by rintro _ ⟨⟩; exact hj)]
        exact I'
      | col j =>
        rw [hi] at ha hm hmem; subst ha
        obtain ⟨hj, hlt⟩ : j < P.q ∧ posF shape j < pc k := hm
        have hF := hin _ j hj hlt
        have hr := P.req_lt hk hj
        have hb : ∀ r ∈ P.upTo (posF shape) pc,
            tk r < c0 (P.cell r) + P.cnt (range (P.q * P.m)) (P.cell r) := fun r hr =>
          lt_of_lt_of_le (I.hi r hr) (Nat.add_le_add_left (P.cnt_mono (hsub _ _) _) _)
        obtain ⟨hb1, hb2⟩ := hcol j hmem _ hr _ (hb _ hF)
        obtain ⟨s', e, I'⟩ := I.col hj hF hb1 (by
          intro r hrF heq
          obtain ⟨e1, e2⟩ := hb2 r (mem_range.1 (hsub _ _ hrF)) _ (hb r hrF) heq.symm
          exact I.inj r hrF _ hF e1.symm e2.symm)
        refine ⟨s', e, tk, ?_⟩
        rw [upd (posF shape) none (fun j' hj' => by have := (hq j' hj').1; simp only [hi] at this; simpa using this) (by simp),
          upd (posC shape) none (fun j' hj' => by have := (hq j' hj').2.1; simp only [hi] at this; simpa using this) (by simp),
          upd (posW shape) (some j) (fun j' hj' => by have := (hq j' hj').2.2.1; simp only [hi] at this; simpa using this) (by rintro _ ⟨⟩; exact hj),
          upd (posO shape) none (fun j' hj' => by have := (hq j' hj').2.2.2; simp only [hi] at this; simpa using this) (by simp)]
        exact I')
    h s0 ⟨fun _ => 0, by
      have he : ∀ pos, P.upTo pos (fun _ => 0) = ∅ := by
        intro pos; simp [TPar.upTo]
      simp only [he]
      constructor <;> simp_all [TPar.cnt]⟩
  refine ⟨s', tk, r, ?_⟩
  have he : ∀ pos, P.upTo pos pc = P.upTo pos fun _ => shape.length := by
    intro pos
    ext x
    rw [P.upTo_mem, P.upTo_mem]
    constructor
    · rintro ⟨a, b⟩
      have hx : x / P.q < P.m := Nat.div_lt_of_lt_mul a
      have := hpc _ hx
      simp only [List.length_map] at this
      exact ⟨a, by omega⟩
    · rintro ⟨a, b⟩
      have hx : x / P.q < P.m := Nat.div_lt_of_lt_mul a
      have := hpc _ hx
      simp only [List.length_map] at this
      exact ⟨a, by omega⟩
  simpa only [he] using hI

end NeoFOAM
namespace NeoFOAM
example : ShapeOK 2 [.fetch 0, .fetch 1, .col 0, .col 1] := by decide
example : ShapeOK 1 [.load 0, .off 0, .col 0, .store 0] := by decide
end NeoFOAM
