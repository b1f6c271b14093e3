import Verif.Proofs.OldTime

/-!
# C05, fields created from existing fields: which indices the new field gets
-/
namespace NeoFOAM

/-- **C05, `CreateFromExistingField`**: the document has the name and the values asked for, the field belongs to no collection yet, and each index
is the one asked for, or, if that was left at its default `9223372036854775807` and the existing field is registered, the existing field's. -/
theorem C05_from_existing {name : String} {ty : Nat} {f : FieldVal} {t i s t0 i0 s0 : Int} {st : DB} {c : FieldColl} {fd : Dict}
    (h : f.registered = true → st.colls.find? f.coll = some (.field c) ∧ c.docs.find? f.key = some fd)
    (ht : getI64 fd "timeIndex" = .ok t0) (hi : getI64 fd "iterationIndex" = .ok i0) (hs : getI64 fd "subCycleIndex" = .ok s0) :
    ∃ d, createFromExisting name ty f t i s st = (.ok d, { st with ctr := st.ctr + 2 }) ∧
      getStr d "name" = .ok name ∧
      getI64 d "timeIndex" = .ok (if f.registered = true ∧ t = 9223372036854775807 then t0 else t) ∧
      getI64 d "iterationIndex" = .ok (if f.registered = true ∧ i = 9223372036854775807 then i0 else i) ∧
      getI64 d "subCycleIndex" = .ok (if f.registered = true ∧ s = 9223372036854775807 then s0 else s) ∧
      getField ty d = .ok ⟨name, "", "", true, f.payload⟩ := by
  have hp : ∀ x y : Int, pick f.registered x y = if f.registered = true ∧ x = 9223372036854775807 then y else x := by
    intro x y
    have : i64Max = 9223372036854775807 := by decide
    unfold pick
    rw [this]
  refine ⟨_, createFromExisting_run h ht hi hs, ?_⟩
  rw [hp, hp, hp]
  refine ⟨?_, ?_, ?_, ?_, ?_⟩
  all_goals simp [copyDoc, getStr, getI64, getField, Dict.index, AMap.at?, AMap.find?]

/-- Non-vacuity: a registered field whose time index is inherited while its iteration index is replaced. -/
example : ∃ d, createFromExisting "U_0" 1 ⟨"U", "k", "fields", true, 4⟩ 9223372036854775807 5 9223372036854775807
    ⟨[("fields", .field ⟨"fields", [("k", [("timeIndex", .i64 7), ("iterationIndex", .i64 2), ("subCycleIndex", .i64 3)])]⟩)], 0⟩ =
      (.ok d, ⟨[("fields", .field ⟨"fields", [("k", [("timeIndex", .i64 7), ("iterationIndex", .i64 2), ("subCycleIndex", .i64 3)])]⟩)], 2⟩) ∧
    getI64 d "timeIndex" = .ok 7 ∧ getI64 d "iterationIndex" = .ok 5 ∧ getI64 d "subCycleIndex" = .ok 3 := by
  obtain ⟨d, h1, -, h2, h3, h4, -⟩ := C05_from_existing (name := "U_0") (ty := 1) (f := ⟨"U", "k", "fields", true, 4⟩) (t := 9223372036854775807) (i := 5)
    (s := 9223372036854775807) (t0 := 7) (i0 := 2) (s0 := 3)
    (st := ⟨[("fields", .field ⟨"fields", [("k", [("timeIndex", .i64 7), ("iterationIndex", .i64 2), ("subCycleIndex", .i64 3)])]⟩)], 0⟩)
    (c := ⟨"fields", [("k", [("timeIndex", .i64 7), ("iterationIndex", .i64 2), ("subCycleIndex", .i64 3)])]⟩)
    (fd := [("timeIndex", .i64 7), ("iterationIndex", .i64 2), ("subCycleIndex", .i64 3)])
    (fun _ => ⟨rfl, rfl⟩) rfl rfl rfl
  exact ⟨d, h1, h2, h3, h4⟩

end NeoFOAM
