import Verif.Model.Database

/-!
# C04 – the database keeps the first collection inserted under a name
-/
namespace NeoFOAM

/-- A mutating call on a database. -/
inductive DbOp where
  | insert (name : String) (c : Coll)
  | remove (name : String)

/-- The state after one call. -/
def DB.apply (db : DB) : DbOp → DB
  | .insert n c => db.insert n c
  | .remove n => (db.remove n).2

/-- The state after a history of calls. -/
def DB.run (db : DB) (ops : List DbOp) : DB := ops.foldl DB.apply db

namespace Spec

/-- The collections inserted under `k` since the last removal of `k`, in order. -/
def insertedSinceRemoval (k : String) (ops : List DbOp) : List Coll :=
  ops.foldl (fun acc op => match op with
    | .insert n c => if n = k then acc ++ [c] else acc
    | .remove n => if n = k then [] else acc) []

end Spec
open Spec

theorem dbrun_inv (ops : List DbOp) : ∀ (db : DB) (k : String) (acc : List Coll), db.colls.Uniq →
    db.colls.find? k = acc.head? →
    (db.run ops).colls.Uniq ∧ (db.run ops).colls.find? k =
      (ops.foldl (fun acc op => match op with
        | .insert n c => if n = k then acc ++ [c] else acc
        | .remove n => if n = k then [] else acc) acc).head? := by
  induction ops with
  | nil => intro db k acc hu hf; exact ⟨hu, hf⟩
  | cons op ops ih =>
    intro db k acc hu hf
    simp only [DB.run, List.foldl_cons]
    cases op with
    | insert n c =>
      refine ih (db.apply (.insert n c)) k _ ?_ ?_
      · exact AMap.Uniq.emplace hu n c
      · simp only [DB.apply, DB.insert, AMap.find?_emplace]
        by_cases h : n = k
        · subst h
          simp only [if_true, hf]
          cases acc <;> simp
        · simp [h, Ne.symm h, hf]
    | remove n =>
      refine ih (db.apply (.remove n)) k _ ?_ ?_
      · exact AMap.Uniq.erase hu n
      · simp only [DB.apply, DB.remove, AMap.find?_erase hu]
        by_cases h : n = k
        · subst h; simp
        · simp [h, Ne.symm h, hf]

/-- **C04.** After any history of `insert`/`remove` on a new database: `contains(k)` says whether a
collection was inserted under `k` since its last removal; `at(k)` gives the first one of these and
throws `out_of_range` when there is none; a further `insert` hands back that stored collection and
changes nothing when the name is present, and stores the new one otherwise; a further `remove`
returns whether the name was present; `size` is the number of present names. -/
theorem C04_database (ctr : Nat) (ops : List DbOp) (k : String) :
    let db := DB.run ⟨[], ctr⟩ ops
    (db.contains k = true ↔ insertedSinceRemoval k ops ≠ []) ∧
    (∀ c rest, insertedSinceRemoval k ops = c :: rest → db.at k = .ok c) ∧
    (insertedSinceRemoval k ops = [] → db.at k = .throw .outOfRange) ∧
    (∀ c, (dbInsert k c db).1 = .ok ((insertedSinceRemoval k ops).headD c)) ∧
    (∀ c, db.contains k = true → db.insert k c = db) ∧
    ((db.remove k).1 = true ↔ insertedSinceRemoval k ops ≠ []) ∧
    (∀ names : List String, names.Nodup → (∀ n, db.contains n = true → n ∈ names) →
      db.size = (names.filter db.contains).length) := by
  intro db
  obtain ⟨hu, hf⟩ := dbrun_inv ops ⟨[], ctr⟩ k [] (by simp [AMap.Uniq, AMap.keys]) rfl
  change db.colls.Uniq at hu
  change db.colls.find? k = (insertedSinceRemoval k ops).head? at hf
  have hc : db.contains k = true ↔ insertedSinceRemoval k ops ≠ [] := by
    simp only [DB.contains, AMap.contains, hf]
    cases insertedSinceRemoval k ops <;> simp
  refine ⟨hc, ?_, ?_, ?_, ?_, hc, ?_⟩
  · intro c rest h
    simp [DB.at, AMap.at?, hf, h]
  · intro h
    simp [DB.at, AMap.at?, hf, h]
  · intro c
    simp only [dbInsert, DB.at, AMap.at?, DB.insert, AMap.find?_emplace, if_true, hf]
    cases insertedSinceRemoval k ops <;> simp
  · intro c h
    simp only [DB.contains] at h
    simp [DB.insert, AMap.emplace, h]
  · intro names hn hsub
    have hkeys : ∀ n, n ∈ db.colls.keys ↔ db.contains n = true :=
      fun n => (AMap.contains_iff_mem_keys db.colls n).symm
    have : (names.filter db.contains).Perm db.colls.keys := by
      rw [List.perm_ext_iff_of_nodup (hn.filter _) hu]
      intro n
      rw [List.mem_filter, hkeys]
      exact ⟨fun h => h.2, fun h => ⟨hsub n h, h⟩⟩
    rw [this.length_eq]
    simp [DB.size, AMap.keys]

/-- Removal and re-insertion: the later collection is the one found, the second insert is ignored. -/
example : (DB.run ⟨[], 0⟩ [.insert "a" (.other 1), .remove "a", .insert "a" (.other 2),
    .insert "a" (.other 3), .insert "b" (.other 4)]).at "a" = .ok (.other 2) ∧
    insertedSinceRemoval "a" [.insert "a" (.other 1), .remove "a", .insert "a" (.other 2),
    .insert "a" (.other 3), .insert "b" (.other 4)] = [.other 2, .other 3] := by
  constructor <;> rfl

end NeoFOAM
