import Verif.Model.Database
import Verif.Base.Sched

/-!
# C03 – document ids are unique across a whole run
-/
namespace NeoFOAM

theorem natRepr_inj {a b : Nat} (h : a.repr = b.repr) : a = b := by
  have h1 : a.repr.toList = b.repr.toList := by rw [h]
  rw [Nat.toList_repr, Nat.toList_repr] at h1
  have := Nat.ofDigitChars_toDigits (b := 10) (n := a) (by decide) (by decide)
  rw [h1, Nat.ofDigitChars_toDigits (by decide) (by decide)] at this
  exact this.symm

theorem minus_not_digits (n : Nat) (s : String) : "-" ++ s ≠ n.repr := by
  intro h
  have h1 : ("-" ++ s).toList = n.repr.toList := by rw [h]
  rw [Nat.toList_repr] at h1
  have h2 : '-' ∈ Nat.toDigits 10 n := by rw [← h1]; simp
  have := Nat.isDigit_of_mem_toDigits (by decide) (by decide) h2
  revert this; decide

theorem append_left_inj' {s a b : String} (h : s ++ a = s ++ b) : a = b := by
  have h1 : (s ++ a).toList = (s ++ b).toList := by rw [h]
  rw [String.toList_append, String.toList_append] at h1
  exact String.toList_inj.1 (List.append_cancel_left h1)

theorem intToString_inj {a b : Int} (h : intToString a = intToString b) : a = b := by
  cases a with
  | ofNat a =>
    cases b with
    | ofNat b => rw [natRepr_inj h]
    | negSucc b => exact absurd h.symm (minus_not_digits _ _)
  | negSucc a =>
    cases b with
    | ofNat b => exact absurd h (minus_not_digits _ _)
    | negSucc b =>
      have := natRepr_inj (append_left_inj' h)
      have : a = b := by omega
      rw [this]

theorem wrap32_inj {a b : Nat} (ha : a < 2 ^ 32) (hb : b < 2 ^ 32) (h : wrap32 a = wrap32 b) :
    a = b := by
  unfold wrap32 at h
  rw [Nat.mod_eq_of_lt ha, Nat.mod_eq_of_lt hb] at h
  split at h <;> split at h <;> omega

theorem docId_inj {a b : Nat} (ha : a < 2 ^ 32) (hb : b < 2 ^ 32) (h : docId a = docId b) : a = b :=
  wrap32_inj ha hb (intToString_inj (append_left_inj' h))

theorem docId_ne_empty (n : Nat) : docId n ≠ "" := by
  intro h
  have : (docId n).toList = [] := by rw [h]; rfl
  simp [docId] at this

/-- One construction `Document(dict, validator)` requested by some thread. -/
structure Ctor where
  dict : Dict
  validator : Dict → Bool

/-- The outcomes of document constructions in the global order in which their `generateID` calls
happen (the counter is atomic, everything else in the constructor is local to the thread). -/
def constructAll : List Ctor → DB → List (Res Dict)
  | [], _ => []
  | c :: cs, s => (mkDocument c.dict c.validator s).1 :: constructAll cs (mkDocument c.dict c.validator s).2

theorem mkDocument_run (d : Dict) (v : Dict → Bool) (s : DB) :
    mkDocument d v s =
      (if v (if d.contains "id" then d else d.insert "id" (.str (docId s.ctr)))
        then .ok (if d.contains "id" then d else d.insert "id" (.str (docId s.ctr)))
        else .throw .runtimeError, { s with ctr := s.ctr + 1 }) := by
  simp only [mkDocument, bind, M.bind, generateID]
  generalize (if d.contains "id" then d else d.insert "id" (.str (docId s.ctr))) = d'
  by_cases h : v d' = true
  · simp only [h, if_true]; rfl
  · simp only [h]; rfl

theorem constructAll_get (cs : List Ctor) : ∀ (s : DB) (i : Nat) (h : i < cs.length),
    (constructAll cs s)[i]? = some
      (mkDocument cs[i].dict cs[i].validator { s with ctr := s.ctr + i }).1 := by
  induction cs with
  | nil => intro s i h; simp at h
  | cons c cs ih =>
    intro s i h
    cases i with
    | zero => simp [constructAll]
    | succ i =>
      simp only [constructAll, List.getElem?_cons_succ, List.getElem_cons_succ]
      rw [ih _ i (by simpa using h)]
      simp only [mkDocument_run c.dict]
      rw [Nat.add_assoc, Nat.add_comm 1 i]

/-- **C03 (partial: fewer than 2^32 documents in the run).** However the threads' constructor calls
interleave, two documents built from dictionaries without an id never have the same id, and a
document built from a dictionary with an id is that dictionary unchanged. Missing: runs that
construct more than 2^32 documents, where it is false (`C03_ids_repeat`). -/
theorem C03_ids_unique_partial (threads : List (List Ctor)) (order : List Ctor)
    (hsched : Interleave threads order) (s : DB) (hrun : s.ctr + threads.flatten.length ≤ 2 ^ 32) :
    (constructAll order s).length = threads.flatten.length ∧
    (∀ (i j : Nat) (a b x y : Dict), i ≠ j → (order[i]?).map Ctor.dict = some a → (order[j]?).map Ctor.dict = some b →
      a.contains "id" = false → b.contains "id" = false →
      (constructAll order s)[i]? = some (Res.ok x) → (constructAll order s)[j]? = some (Res.ok y) →
      ∃ u v, docIdOf x = .ok u ∧ docIdOf y = .ok v ∧ u ≠ v) ∧
    (∀ (i : Nat) (a x : Dict), (order[i]?).map Ctor.dict = some a → a.contains "id" = true →
      (constructAll order s)[i]? = some (Res.ok x) → x = a) := by
  have hlen : order.length = threads.flatten.length := hsched.perm.length_eq
  have hidOf : ∀ (d : Dict) (n : Nat) (v : Dict → Bool) (x : Dict) (s : DB),
      d.contains "id" = false → (mkDocument d v { s with ctr := n }).1 = .ok x →
      docIdOf x = .ok (docId n) := by
    intro d n v x s hd hx
    rw [mkDocument_run] at hx
    simp only [hd, Bool.false_eq_true, if_false] at hx
    split at hx
    · simp only [Res.ok.injEq] at hx
      subst hx
      simp [docIdOf, getStr, Dict.index, Dict.insert, AMap.at?, AMap.find?_assign]
    · simp at hx
  have key : ∀ i (x : Dict) (a : Dict), (order[i]?).map Ctor.dict = some a →
      (constructAll order s)[i]? = some (Res.ok x) →
      i < order.length ∧ ∃ v, (mkDocument a v { s with ctr := s.ctr + i }).1 = .ok x := by
    intro i x a ha hx
    rcases Nat.lt_or_ge i order.length with hi | hi
    · rw [constructAll_get order s i hi] at hx
      rw [List.getElem?_eq_getElem hi] at ha
      simp only [Option.map_some, Option.some.injEq] at ha hx
      exact ⟨hi, order[i].validator, by rw [← ha]; exact hx⟩
    · rw [List.getElem?_eq_none hi] at ha; simp at ha
  refine ⟨?_, ?_, ?_⟩
  · rw [← hlen]
    generalize order = o
    induction o generalizing s with
    | nil => rfl
    | cons c cs ih =>
      simp only [constructAll, List.length_cons]
      clear ih key hidOf hrun hlen
      congr 1
      generalize (mkDocument c.dict c.validator s).2 = s'
      induction cs generalizing s' with
      | nil => rfl
      | cons c cs ih => simp only [constructAll, List.length_cons]; rw [ih]
  · intro i j a b x y hij ha hb hia hib hx hy
    obtain ⟨hi, v, hv⟩ := key i x a ha hx
    obtain ⟨hj, w, hw⟩ := key j y b hb hy
    refine ⟨_, _, hidOf a _ v x s hia hv, hidOf b _ w y s hib hw, fun h => hij ?_⟩
    have := docId_inj (by omega) (by omega) h
    omega
  · intro i a x ha hia hx
    obtain ⟨hi, v, hv⟩ := key i x a ha hx
    rw [mkDocument_run] at hv
    simp only [hia, if_true] at hv
    split at hv
    · simpa using hv.symm
    · simp at hv

/-- **C03 violated after 2^32 documents.** The counter is a 32-bit integer: the document constructed
2^32 constructions after another one gets the same id, whatever the first one's position. -/
theorem C03_ids_repeat (n : Nat) : docId (n + 2 ^ 32) = docId n ∧
    ∀ s : DB, (mkDocument [] hasId { s with ctr := n + 2 ^ 32 }).1
      = (mkDocument [] hasId { s with ctr := n }).1 := by
  have h : docId (n + 2 ^ 32) = docId n := by simp [docId, wrap32]
  refine ⟨h, fun s => ?_⟩
  rw [mkDocument_run, mkDocument_run]
  simp only [h]

/-- **C03, the text of a default id**: it is "doc_" and the value of a 32-bit counter in decimal, counting on from `-2^31` after `2^31 - 1`. -/
theorem C03_id_text (n : Nat) : ∃ i : Int, -2 ^ 31 ≤ i ∧ i < 2 ^ 31 ∧ (2 : Int) ^ 32 ∣ n - i ∧ docId n = "doc_" ++ toString i ∧
    ∀ s : DB, (mkDocument [] hasId { s with ctr := n }).1 = .ok [("id", .str ("doc_" ++ toString i))] := by
  have hid : docId n = "doc_" ++ toString (wrap32 n) := by
    unfold docId
    congr 1
  have hn : n % 2 ^ 32 < 2 ^ 32 := Nat.mod_lt _ (by decide)
  refine ⟨wrap32 n, ?_, ?_, ?_, hid, fun s => ?_⟩
  · unfold wrap32
    split <;> omega
  · unfold wrap32
    split <;> omega
  · unfold wrap32
    split <;> omega
  · rw [mkDocument_run, ← hid]
    rfl

/-- Non-vacuity: two threads, three constructions, one with a user id; an interleaved order. -/
example :
    let a : Ctor := ⟨[], hasId⟩
    let b : Ctor := ⟨[("name", .str "a")], hasId⟩
    let c : Ctor := ⟨[("id", .str "mine")], hasId⟩
    Interleave [[a, b], [c]] [a, c, b] ∧
    constructAll [a, c, b] ⟨[], 0⟩ = [.ok [("id", .str (docId 0))], .ok [("id", .str "mine")],
      .ok [("name", .str "a"), ("id", .str (docId 2))]] := by
  intro a b c
  constructor
  · refine .step [] a [b] [[c]] _ ?_
    refine .step [[b]] c [] [] _ ?_
    refine .step [] b [] [[]] _ ?_
    exact .done _ (by simp)
  · simp only [constructAll, mkDocument_run]; rfl

end NeoFOAM
