import Verif.Model.Database
import Mathlib.Data.List.Sort
import Mathlib.Data.String.Basic

/-!
# C58 – queries of a collection give every document once, by an id that leads to it

After every history of insertions and changes of documents.
-/
namespace NeoFOAM

/-- What a user does with a collection: insert a document, change one through `doc(id)`. -/
inductive CollOp where
  | insert (d : Dict)
  | edit (id : String) (f : Dict → Dict)

/-- One call; a call that throws changes nothing. -/
def CollOp.step (c : FieldColl) : CollOp → FieldColl
  | .insert d => match c.insert d with
    | .ok r => r.2
    | _ => c
  | .edit id f => match editDoc c.docs id f with
    | .ok docs => { c with docs := docs }
    | _ => c

/-- A history, from a new collection. -/
def collRun (name : String) (ops : List CollOp) : FieldColl := ops.foldl CollOp.step ⟨name, []⟩

/-- The change leaves the entry "id" of every document alone. -/
def KeepsId : CollOp → Prop
  | .insert _ => True
  | .edit _ f => ∀ d : Dict, getStr (f d) "id" = getStr d "id"

section proofs

/-- Keys are unique and are the documents' ids. -/
private structure IdInv (c : FieldColl) : Prop where
  uniq : c.docs.Uniq
  ids : ∀ k d, c.docs.find? k = some d → docIdOf d = .ok k

private theorem at_find {m : AMap String Dict} {k : String} {d : Dict} : m.at? k = .ok d ↔ m.find? k = some d := by
  unfold AMap.at?
  cases m.find? k <;> simp

private theorem uniq_step {c : FieldColl} (h : c.docs.Uniq) (op : CollOp) : (op.step c).docs.Uniq := by
  cases op with
  | insert d =>
    simp only [CollOp.step, FieldColl.insert]
    cases hd : docIdOf d with
    | ok id =>
      by_cases hc : c.docs.contains id = true
      · simp [hc, h]
      · simp only [Res.ok_bind, hc, Res.pure_eq]
        exact h.emplace _ _
    | _ => exact h
  | edit id f =>
    simp only [CollOp.step, editDoc]
    cases c.docs.at? id with
    | ok d => exact h.modify _ _
    | _ => exact h

private theorem inv_step {c : FieldColl} (h : IdInv c) (op : CollOp) (hk : KeepsId op) : IdInv (op.step c) := by
  refine ⟨uniq_step h.uniq op, ?_⟩
  cases op with
  | insert d =>
    simp only [CollOp.step, FieldColl.insert]
    cases hd : docIdOf d with
    | ok id =>
      by_cases hc : c.docs.contains id = true
      · simpa [hc] using h.ids
      · simp only [Res.ok_bind, hc, Res.pure_eq]
        intro k d' hf
        have hf' : (c.docs.emplace id d).find? k = some d' := hf
        rw [AMap.find?_emplace] at hf'
        by_cases e : k = id
        · subst e
          have hn : c.docs.find? k = none := by
            simpa [AMap.contains] using hc
          simp [hn] at hf'
          subst hf'
          exact hd
        · simp [e] at hf'
          exact h.ids k d' hf'
    | _ => exact h.ids
  | edit id f =>
    simp only [CollOp.step, editDoc]
    cases c.docs.at? id with
    | ok d =>
      intro k d' hf
      have hf' : (c.docs.modify id f).find? k = some d' := hf
      rw [AMap.find?_modify] at hf'
      by_cases e : k = id
      · subst e
        simp only [if_true, Option.map_eq_some_iff] at hf'
        obtain ⟨d0, h0, rfl⟩ := hf'
        rw [docIdOf, hk d0]
        exact h.ids k d0 h0
      · simp only [e, if_false] at hf'
        exact h.ids k d' hf'
    | _ => exact h.ids

private theorem uniq_run {name : String} (ops : List CollOp) : (collRun name ops).docs.Uniq := by
  unfold collRun
  have : ∀ (ops : List CollOp) (c : FieldColl), c.docs.Uniq → (ops.foldl CollOp.step c).docs.Uniq := by
    intro ops
    induction ops with
    | nil => exact fun c h => h
    | cons o ops ih => exact fun c h => ih _ (uniq_step h o)
  exact this ops _ .nil

private theorem inv_run {name : String} (ops : List CollOp) (hk : ∀ o ∈ ops, KeepsId o) : IdInv (collRun name ops) := by
  unfold collRun
  have : ∀ (ops : List CollOp) (c : FieldColl), (∀ o ∈ ops, KeepsId o) → IdInv c → IdInv (ops.foldl CollOp.step c) := by
    intro ops
    induction ops with
    | nil => exact fun c _ h => h
    | cons o ops ih => exact fun c hk h => ih _ (fun x hx => hk x (List.mem_cons_of_mem _ hx)) (inv_step h o (hk o List.mem_cons_self))
  exact this ops _ hk ⟨.nil, nofun⟩

private theorem find_ok (p : Dict → Bool) (pred : Dict → Res Bool) (hp : ∀ d, pred d = .ok (p d)) : ∀ (docs : AMap String Dict) (acc : List String),
    (∀ q ∈ docs, docIdOf q.2 = .ok q.1) →
    docs.foldlM (fun acc q => do
      if ← pred q.2 then do
        let i ← docIdOf q.2
        return acc ++ [i]
      else return acc) acc = .ok (acc ++ ((List.filter (fun q => p q.2) docs).map Prod.fst))
  | [], acc, _ => by simp
  | q :: docs, acc, h => by
    rw [List.foldlM_cons]
    simp only [hp, Res.ok_bind]
    cases hq : p q.2
    · simp only [Bool.false_eq_true, if_false, Res.pure_eq, Res.ok_bind]
      have := find_ok p pred hp docs acc (fun x hx => h x (List.mem_cons_of_mem _ hx))
      simp only [hp, Res.ok_bind, Res.pure_eq] at this
      rw [this]
      simp [hq]
    · simp only [if_true, h q List.mem_cons_self, Res.pure_eq, Res.ok_bind]
      have := find_ok p pred hp docs (acc ++ [q.1]) (fun x hx => h x (List.mem_cons_of_mem _ hx))
      simp only [hp, Res.ok_bind, Res.pure_eq] at this
      rw [this]
      simp [hq]

end proofs

/-- **C58, find**: after every history whose changes leave the entry "id" alone, and for every predicate, `find` lists exactly the ids of
the documents for which it holds, each once; each leads back to its document. -/
theorem C58_find_partial (name : String) (ops : List CollOp) (hk : ∀ o ∈ ops, KeepsId o) (p : Dict → Bool) :
    ∃ ids, findDocs (collRun name ops).docs (fun d => .ok (p d)) = .ok ids ∧ ids.Nodup ∧
      ∀ id, id ∈ ids ↔ ∃ d, collDoc (collRun name ops).docs id = .ok d ∧ p d = true := by
  have hi := inv_run (name := name) ops hk
  have hq : ∀ q ∈ (collRun name ops).docs, docIdOf q.2 = .ok q.1 := fun q hq =>
    hi.ids q.1 q.2 ((AMap.find?_eq_some_iff hi.uniq _ _).2 hq)
  refine ⟨_, by simpa [findDocs] using find_ok p _ (fun _ => rfl) (collRun name ops).docs [] hq, ?_, fun id => ?_⟩
  · exact hi.uniq.sublist (List.filter_sublist.map _)
  · unfold collDoc
    simp only [at_find, AMap.find?_eq_some_iff hi.uniq, List.mem_map, List.mem_filter]
    constructor
    · rintro ⟨⟨k, d⟩, ⟨h1, h2⟩, rfl⟩
      exact ⟨d, h1, h2⟩
    · rintro ⟨d, h1, h2⟩
      exact ⟨(id, d), ⟨h1, h2⟩, rfl⟩

/-- **C58, sortedKeys**: after every history, `sortedKeys` has one possible result; it ascends strictly, lists exactly the ids `doc` accepts and its
length is the number of documents. -/
theorem C58_sortedKeys (name : String) (ops : List CollOp) :
    ∃ ks, (∀ out, sortedKeys (collRun name ops).docs out ↔ out = ks) ∧ ks.Pairwise (· < ·) ∧ ks.length = (collRun name ops).docs.length ∧
      ∀ id, id ∈ ks ↔ ∃ d, collDoc (collRun name ops).docs id = .ok d := by
  have hu := uniq_run (name := name) ops
  set docs := (collRun name ops).docs
  have hle : ∀ l : List String, l.Pairwise (fun a b => ¬ b < a) ↔ l.Pairwise (· ≤ ·) := fun l => by simp only [not_lt]
  let ks := docs.keys.mergeSort (· ≤ ·)
  have h1 : ks.Perm docs.keys := List.mergeSort_perm _ _
  have h2 : ks.Pairwise (· ≤ ·) := by
    have := List.pairwise_mergeSort (le := fun a b : String => decide (a ≤ b)) (fun a b c => by simpa using le_trans)
      (fun a b => by simpa using le_total a b) docs.keys
    simpa using this
  refine ⟨ks, fun out => ⟨fun ⟨g1, g2⟩ => ?_, ?_⟩, ?_, ?_, fun id => ?_⟩
  · exact List.Perm.eq_of_pairwise' ((hle _).1 g2) h2 (g1.trans h1.symm)
  · rintro rfl
    exact ⟨h1, (hle _).2 h2⟩
  · have hn : ks.Nodup := h1.nodup_iff.2 hu
    have := List.Pairwise.and h2 hn
    exact this.imp fun h => lt_of_le_of_ne h.1 h.2
  · rw [h1.length_eq]; simp [AMap.keys]
  · rw [h1.mem_iff, ← AMap.contains_iff_mem_keys, AMap.contains]
    unfold collDoc
    simp only [at_find, Option.isSome_iff_exists]

/-- The result does not depend on the order in which the map is iterated. -/
theorem C58_iteration_order {docs docs' : AMap String Dict} (h : docs.Perm docs') (out : List String) : sortedKeys docs out ↔ sortedKeys docs' out := by
  have hk : docs.keys.Perm docs'.keys := h.map _
  exact ⟨fun g => ⟨g.1.trans hk, g.2⟩, fun g => ⟨g.1.trans hk.symm, g.2⟩⟩

/-- **C58 fails when the entry "id" is changed** through `doc(id)`: `find` then lists the new id, `doc` throws for it, and the document is still
reached by the old one. -/
theorem C58_violation : ∃ ops : List CollOp, findDocs (collRun "c" ops).docs (fun _ => .ok true) = .ok ["b"] ∧
    collDoc (collRun "c" ops).docs "b" = .throw .outOfRange ∧ (∃ d, collDoc (collRun "c" ops).docs "a" = .ok d) ∧ sortedKeys (collRun "c" ops).docs ["a"] :=
  ⟨[.insert [("id", .str "a")], .edit "a" (fun d => AMap.assign d "id" (.str "b"))], rfl, rfl, ⟨[("id", .str "b")], rfl⟩, List.Perm.refl _, by simp⟩

/-- Ids sort as strings, so the keys of generated ids do not come in order of creation. -/
theorem C58_not_creation_order : docId 10 < docId 2 := by decide

/-- The hypotheses can be met: two documents, one changed. -/
example : ∃ ops : List CollOp, (∀ o ∈ ops, KeepsId o) ∧ (collRun "c" ops).docs.length = 2 ∧
    findDocs (collRun "c" ops).docs (fun d => .ok (d.contains "x")) = .ok ["b"] :=
  ⟨[.insert [("id", .str "a")], .insert [("id", .str "b")], .edit "b" (fun d => AMap.assign d "x" (.int 1))], by
    intro o ho
    simp only [List.mem_cons, List.not_mem_nil, or_false] at ho
    rcases ho with rfl | rfl | rfl
    · trivial
    · trivial
    · intro d
      unfold getStr
      simp only [Dict.index, AMap.at?, AMap.find?_assign]
      simp, rfl, rfl⟩

end NeoFOAM
