import Verif.Model.Ginkgo

/-!
# C55 – the Ginkgo solver receives every entry of its dictionary

For all dictionaries of any nesting depth.
-/
namespace NeoFOAM

/-- The entry of a nested dictionary reached by a sequence of keys. -/
def Any.at : Any → List String → Option Any
  | a, [] => some a
  | .dict d, k :: ks => match AMap.find? d k with
    | some a => a.at ks
    | none => none
  | _, _ :: _ => none

/-- The entry of a configuration reached by a sequence of keys. -/
def PNode.at : PNode → List String → Option PNode
  | n, [] => some n
  | .map m, k :: ks => match AMap.find? m k with
    | some a => a.at ks
    | none => none
  | _, _ :: _ => none

/-- `v` is the configuration value for the dictionary value `a`. -/
inductive LeafOf (T : LeafTypes) : Any → PNode → Prop
  | str (s : String) : LeafOf T (.str s) (.str s)
  | int (i : Int) : LeafOf T (.int i) (.int i)
  | cstr (p : Nat) : LeafOf T (.opaque T.cstr p) (.str (T.chars p))
  | uint (p : Nat) : LeafOf T (.opaque T.uint p) (.int (T.toNat p))
  | dbl (p : Nat) : LeafOf T (.opaque T.dbl p) (.real p)
  | flt (p : Nat) : LeafOf T (.opaque T.flt p) (.real (T.widen p))

/-- A dictionary value of a type the configuration can hold. -/
def Supported (T : LeafTypes) (a : Any) : Prop := (∃ d, a = .dict d) ∨ ∃ v, LeafOf T a v

section proofs

theorem parseAny_eq (T : LeafTypes) {d : Dict} {k : String} {a : Any} (h : AMap.find? d k = some a) (t : Ty) :
    parseAny T d k t = .ok (if a.ty = t then PNode.ofAny T t a else .empty) := by
  unfold parseAny Dict.get Dict.index AMap.at? anyCast
  rw [h]
  by_cases e : a.ty = t <;> simp [e]

theorem parseChain_none (T : LeafTypes) {d : Dict} {k : String} {a : Any} (h : AMap.find? d k = some a) (ts : List Ty)
    (hn : ∀ t ∈ ts, a.ty ≠ t) : parseChain T d k ts = .throw .neofoam := by
  induction ts with
  | nil => rfl
  | cons t ts ih =>
    rw [parseChain, parseAny_eq T h, if_neg (hn t (by simp))]
    exact ih fun t ht => hn t (by simp [ht])

theorem ofAny_leaf (T : LeafTypes) (t : Ty) (ht : t ∈ [Ty.str, .opaque T.cstr, .int, .opaque T.uint, .opaque T.dbl, .opaque T.flt]) (a : Any)
    (ha : a.ty = t) : LeafOf T a (PNode.ofAny T t a) ∧ (PNode.ofAny T t a).isSet = true := by
  simp only [List.mem_cons, List.not_mem_nil, or_false] at ht
  cases a with
  | str s => exact ⟨.str s, rfl⟩
  | int s => exact ⟨.int s, rfl⟩
  | i64 i => subst ha; simp [Any.ty] at ht
  | field n f => subst ha; simp [Any.ty] at ht
  | dict d => subst ha; simp [Any.ty] at ht
  | tokens l n => subst ha; simp [Any.ty] at ht
  | «opaque» n p =>
    simp only [Any.ty] at ha
    simp only [PNode.ofAny]
    by_cases h1 : t = .opaque T.cstr
    · rw [if_pos h1]; rw [h1] at ha; cases ha; exact ⟨.cstr p, rfl⟩
    · rw [if_neg h1]
      by_cases h2 : t = .opaque T.uint
      · rw [if_pos h2]; rw [h2] at ha; cases ha; exact ⟨.uint p, rfl⟩
      · rw [if_neg h2]
        by_cases h3 : t = .opaque T.dbl
        · rw [if_pos h3]; rw [h3] at ha; cases ha; exact ⟨.dbl p, rfl⟩
        · rw [if_neg h3]
          have h4 : t = .opaque T.flt := by
            rcases ht with h | h | h | h | h | h
            · rw [h] at ha; cases ha
            · exact absurd h h1
            · rw [h] at ha; cases ha
            · exact absurd h h2
            · exact absurd h h3
            · exact h
          rw [h4] at ha; cases ha; exact ⟨.flt p, rfl⟩

theorem parseChain_some (T : LeafTypes) {d : Dict} {k : String} {a : Any} (h : AMap.find? d k = some a) (ts : List Ty)
    (hs : ∀ t ∈ ts, t ∈ [Ty.str, .opaque T.cstr, .int, .opaque T.uint, .opaque T.dbl, .opaque T.flt]) (hn : ∃ t ∈ ts, a.ty = t) :
    ∃ v, parseChain T d k ts = .ok v ∧ LeafOf T a v := by
  induction ts with
  | nil => obtain ⟨_, h, _⟩ := hn; cases h
  | cons t ts ih =>
    rw [parseChain, parseAny_eq T h]
    by_cases e : a.ty = t
    · obtain ⟨h1, h2⟩ := ofAny_leaf T t (hs t (by simp)) a e
      rw [if_pos e]
      exact ⟨_, by simp [h2], h1⟩
    · rw [if_neg e]
      obtain ⟨t', ht', he⟩ := hn
      rcases List.mem_cons.1 ht' with rfl | ht'
      · exact absurd he e
      · exact ih (fun t ht => hs t (by simp [ht])) ⟨t', ht', he⟩

theorem LeafOf.ty {T : LeafTypes} {a : Any} {v : PNode} (h : LeafOf T a v) :
    a.ty ∈ [Ty.str, .opaque T.cstr, .int, .opaque T.uint, .opaque T.dbl, .opaque T.flt] := by
  cases h <;> simp [Any.ty]

/-- What `parse` computes for one key. -/
theorem parse_leaf (T : LeafTypes) {d : Dict} {k : String} {a : Any} (h : AMap.find? d k = some a) :
    (∃ v, parseData T d k = .ok v ∧ LeafOf T a v) ∨ (parseData T d k = .throw .neofoam ∧ ∀ v, ¬ LeafOf T a v) := by
  unfold parseData
  by_cases e : ∃ t ∈ [Ty.str, .opaque T.cstr, .int, .opaque T.uint, .opaque T.dbl, .opaque T.flt], a.ty = t
  · exact .inl (parseChain_some T h _ (fun _ h => h) e)
  · exact .inr ⟨parseChain_none T h _ fun t ht ha => e ⟨t, ht, ha⟩, fun v hv => e ⟨_, hv.ty, rfl⟩⟩

theorem fold_emplace_ok (f : String → Res PNode) (ks : List String) (r0 : AMap String PNode)
    (h : ∀ k ∈ ks, ∃ v, f k = .ok v) : ∃ r, ks.foldlM (fun (r : AMap String PNode) k => do
      let n ← f k
      return AMap.emplace r k n) r0 = .ok r ∧
      ∀ k, AMap.find? r k = match AMap.find? r0 k with
        | some v => some v
        | none => if k ∈ ks then (match f k with
          | .ok v => some v
          | _ => none) else none := by
  induction ks generalizing r0 with
  | nil => exact ⟨r0, rfl, fun k => by cases AMap.find? r0 k <;> simp⟩
  | cons k ks ih =>
    obtain ⟨v, hv⟩ := h k (by simp)
    obtain ⟨r, hr, hr'⟩ := ih (AMap.emplace r0 k v) fun k hk => h k (by simp [hk])
    refine ⟨r, ?_, fun k' => ?_⟩
    · rw [List.foldlM_cons, hv]; exact hr
    · rw [hr' k', AMap.find?_emplace]
      by_cases hk : k' = k
      · subst hk
        cases AMap.find? r0 k' <;> simp [hv]
      · cases h0 : AMap.find? r0 k' <;> simp [hk]

theorem fold_emplace_throw (f : String → Res PNode) (ks : List String) (r0 : AMap String PNode)
    (h : ∀ k ∈ ks, (∃ v, f k = .ok v) ∨ f k = .throw .neofoam) (h' : ∃ k ∈ ks, f k = .throw .neofoam) :
    ks.foldlM (fun (r : AMap String PNode) k => do
      let n ← f k
      return AMap.emplace r k n) r0 = .throw .neofoam := by
  induction ks generalizing r0 with
  | nil => obtain ⟨_, h, _⟩ := h'; cases h
  | cons k ks ih =>
    rw [List.foldlM_cons]
    rcases h k (by simp) with ⟨v, hv⟩ | hv
    · rw [hv]
      refine ih _ (fun k hk => h k (by simp [hk])) ?_
      obtain ⟨k', hk', hf⟩ := h'
      rcases List.mem_cons.1 hk' with rfl | hk'
      · rw [hv] at hf; cases hf
      · exact ⟨k', hk', hf⟩
    · rw [hv]; rfl

/-- What `parse` computes for one key. -/
def nodeOf (T : LeafTypes) (d : Dict) (key : String) : Res PNode :=
  match AMap.find? d key with
  | some (.dict d') => gkoParse T d'
  | _ => parseData T d key

theorem gkoParse_eq (T : LeafTypes) (d : Dict) : gkoParse T d = (do
    let r ← d.keys.foldlM (fun (r : AMap String PNode) k => do
      let n ← nodeOf T d k
      return AMap.emplace r k n) []
    return .map r) := by
  rw [gkoParse]
  congr 2
  funext r k
  congr 1
  unfold nodeOf Dict.isDict Dict.contains AMap.contains
  cases hf : AMap.find? d k with
  | none => simp
  | some a =>
    cases a with
    | dict d' =>
      have : d.subDict k = .ok d' := by unfold Dict.subDict Dict.index AMap.at?; rw [hf]; rfl
      simp only [Option.isSome_some, Bool.true_and, if_true]
      split
      · next d2 h2 => rw [this] at h2; cases h2; rfl
      · next h2 => rw [this] at h2; cases h2
      · next h2 => rw [this] at h2; cases h2
      · next h2 => rw [this] at h2; cases h2
    | _ => simp

/-- Everything about `parse`, by induction on the nesting. -/
theorem gkoParse_spec (T : LeafTypes) : ∀ (n : Nat) (d : Dict), sizeOf d ≤ n →
    (gkoParse T d = .throw .neofoam ∧ ∃ p a, (Any.dict d).at p = some a ∧ ¬ Supported T a) ∨
    ∃ m, gkoParse T d = .ok (.map m) ∧ (∀ p a, (Any.dict d).at p = some a → Supported T a) ∧
      (∀ p, (Any.dict d).at p = none → (PNode.map m).at p = none) ∧
      (∀ p d', (Any.dict d).at p = some (.dict d') → ∃ m', (PNode.map m).at p = some (.map m')) ∧
      ∀ p a, (Any.dict d).at p = some a → (∀ d', a ≠ .dict d') → ∃ v, (PNode.map m).at p = some v ∧ LeafOf T a v := by
  intro n
  induction n with
  | zero => intro d h; cases d <;> simp at h
  | succ n ih =>
    intro d hd
    have sub : ∀ k d', AMap.find? d k = some (.dict d') → sizeOf d' ≤ n := by
      intro k d' hk
      have : d.subDict k = .ok d' := by unfold Dict.subDict Dict.index AMap.at?; rw [hk]; rfl
      have := Dict.sizeOf_subDict this
      omega
    rw [gkoParse_eq]
    have mem : ∀ k, k ∈ d.keys ↔ ∃ a, AMap.find? d k = some a := by
      intro k
      show k ∈ AMap.keys d ↔ _
      have := AMap.find?_eq_none_iff d k
      cases h : AMap.find? d k with
      | none => simp [h] at this; simpa using this
      | some a => simp [h] at this; simpa using this
    have cases' : ∀ k ∈ d.keys, (∃ v, nodeOf T d k = .ok v) ∨ nodeOf T d k = .throw .neofoam := by
      intro k hk
      obtain ⟨a, ha⟩ := (mem k).1 hk
      unfold nodeOf
      rw [ha]
      cases a with
      | dict d' =>
        rcases ih d' (sub k d' ha) with h | ⟨m, h, -⟩
        · exact .inr h.1
        · exact .inl ⟨_, h⟩
      | _ =>
        rcases parse_leaf T ha with ⟨v, h, -⟩ | ⟨h, -⟩
        · exact .inl ⟨v, h⟩
        · exact .inr h
    by_cases hx : ∃ k ∈ d.keys, nodeOf T d k = .throw .neofoam
    · left
      refine ⟨by rw [fold_emplace_throw _ _ _ cases' hx]; rfl, ?_⟩
      obtain ⟨k, hk, h⟩ := hx
      obtain ⟨a, ha⟩ := (mem k).1 hk
      unfold nodeOf at h
      rw [ha] at h
      have leaf : (∀ d', a ≠ .dict d') → parseData T d k = .throw .neofoam → ∃ p b, (Any.dict d).at p = some b ∧ ¬ Supported T b := by
        intro hnd h
        refine ⟨[k], a, by simp [Any.at, ha], ?_⟩
        rintro (⟨d', hd'⟩ | ⟨v, hv⟩)
        · exact hnd d' hd'
        · rcases parse_leaf T ha with ⟨w, h', -⟩ | ⟨-, h'⟩
          · rw [h] at h'; cases h'
          · exact h' v hv
      cases a with
      | dict d' =>
        rcases ih d' (sub k d' ha) with ⟨-, p, b, hp, hb⟩ | ⟨m, h', -⟩
        · exact ⟨k :: p, b, by simp [Any.at, ha, hp], hb⟩
        · simp only [h'] at h; cases h
      | _ => exact leaf (by simp) h
    · right
      have allok : ∀ k ∈ d.keys, ∃ v, nodeOf T d k = .ok v := fun k hk => (cases' k hk).resolve_right fun h => hx ⟨k, hk, h⟩
      obtain ⟨r, hr, hr'⟩ := fold_emplace_ok (nodeOf T d) d.keys [] allok
      have hnone : ∀ k, AMap.find? d k = none → AMap.find? r k = none := by
        intro k hk
        rw [hr' k]
        have : k ∉ d.keys := fun h => by obtain ⟨a, ha⟩ := (mem k).1 h; rw [hk] at ha; cases ha
        simp [this]
      have hsome : ∀ k a, AMap.find? d k = some a → ∃ v, nodeOf T d k = .ok v ∧ AMap.find? r k = some v := by
        intro k a hk
        have hm := (mem k).2 ⟨a, hk⟩
        obtain ⟨v, hv⟩ := allok k hm
        exact ⟨v, hv, by rw [hr' k]; simp [hm, hv]⟩
      have step : ∀ k a, AMap.find? d k = some a →
          (∃ d' m', a = .dict d' ∧ gkoParse T d' = .ok (.map m') ∧ AMap.find? r k = some (.map m') ∧ sizeOf d' ≤ n) ∨
          ((∀ d', a ≠ .dict d') ∧ ∃ v, AMap.find? r k = some v ∧ LeafOf T a v) := by
        intro k a hk
        obtain ⟨v, hv, hv'⟩ := hsome k a hk
        have leaf : (∀ d', a ≠ .dict d') → parseData T d k = .ok v → ∃ v, AMap.find? r k = some v ∧ LeafOf T a v := by
          intro _ h
          rcases parse_leaf T hk with ⟨w, h', hw⟩ | ⟨h', -⟩
          · rw [h] at h'; cases h'; exact ⟨v, hv', hw⟩
          · rw [h] at h'; cases h'
        unfold nodeOf at hv
        rw [hk] at hv
        cases a with
        | dict d' =>
          left
          rcases ih d' (sub k d' hk) with h | ⟨m, h, -⟩
          · simp only [h.1] at hv; cases hv
          · simp only [h] at hv; cases hv
            exact ⟨d', m, rfl, h, hv', sub k d' hk⟩
        | _ => exact .inr ⟨by simp, leaf (by simp) hv⟩
      have sub' : ∀ d' m', gkoParse T d' = .ok (.map m') → sizeOf d' ≤ n → (∀ p a, (Any.dict d').at p = some a → Supported T a) ∧
          (∀ p, (Any.dict d').at p = none → (PNode.map m').at p = none) ∧
          (∀ p d'', (Any.dict d').at p = some (.dict d'') → ∃ m'', (PNode.map m').at p = some (.map m'')) ∧
          ∀ p a, (Any.dict d').at p = some a → (∀ d'', a ≠ .dict d'') → ∃ v, (PNode.map m').at p = some v ∧ LeafOf T a v := by
        intro d' m' h hs
        rcases ih d' hs with h' | ⟨m, h', h2⟩
        · rw [h'.1] at h; cases h
        · rw [h'] at h; cases h; exact h2
      have leafAt : ∀ a : Any, (∀ d', a ≠ .dict d') → ∀ p b, a.at p = some b → p = [] ∧ b = a := by
        intro a hn p b h
        cases p with
        | nil => exact ⟨rfl, by simpa [Any.at, eq_comm] using h⟩
        | cons k p =>
          cases a with
          | dict d' => exact absurd rfl (hn d')
          | _ => simp [Any.at] at h
      have leafAtN : ∀ (a : Any) (v : PNode), LeafOf T a v → ∀ p, a.at p = none → v.at p = none := by
        intro a v hv p h
        cases p with
        | nil => simp [Any.at] at h
        | cons k p => cases hv <;> rfl
      refine ⟨r, by rw [hr]; rfl, ?_, ?_, ?_, ?_⟩
      · intro p a h
        cases p with
        | nil => simp [Any.at] at h; exact .inl ⟨d, h.symm⟩
        | cons k p =>
          cases hk : AMap.find? d k with
          | none => simp [Any.at, hk] at h
          | some b =>
            simp [Any.at, hk] at h
            rcases step k b hk with ⟨d', m', rfl, h1, h2, h3⟩ | ⟨h1, v, h2, h3⟩
            · exact (sub' d' m' h1 h3).1 p a h
            · obtain ⟨rfl, rfl⟩ := leafAt b h1 p a h
              exact .inr ⟨v, h3⟩
      · intro p h
        cases p with
        | nil => simp [Any.at] at h
        | cons k p =>
          cases hk : AMap.find? d k with
          | none => simp [PNode.at, hnone k hk]
          | some b =>
            simp [Any.at, hk] at h
            rcases step k b hk with ⟨d', m', rfl, h1, h2, h3⟩ | ⟨h1, v, h2, h3⟩
            · simp only [PNode.at, h2]
              exact (sub' d' m' h1 h3).2.1 p h
            · simp only [PNode.at, h2]
              exact leafAtN b v h3 p h
      · intro p d2 h
        cases p with
        | nil => exact ⟨r, rfl⟩
        | cons k p =>
          cases hk : AMap.find? d k with
          | none => simp [Any.at, hk] at h
          | some b =>
            simp [Any.at, hk] at h
            rcases step k b hk with ⟨d', m', rfl, h1, h2, h3⟩ | ⟨h1, v, h2, h3⟩
            · simp only [PNode.at, h2]
              exact (sub' d' m' h1 h3).2.2.1 p d2 h
            · obtain ⟨rfl, rfl⟩ := leafAt b h1 p _ h
              exact absurd rfl (h1 d2)
      · intro p a h hn
        cases p with
        | nil => simp [Any.at] at h; exact absurd h.symm (hn d)
        | cons k p =>
          cases hk : AMap.find? d k with
          | none => simp [Any.at, hk] at h
          | some b =>
            simp [Any.at, hk] at h
            rcases step k b hk with ⟨d', m', rfl, h1, h2, h3⟩ | ⟨h1, v, h2, h3⟩
            · simp only [PNode.at, h2]
              exact (sub' d' m' h1 h3).2.2.2 p a h hn
            · obtain ⟨rfl, rfl⟩ := leafAt b h1 p _ h
              exact ⟨v, by simp only [PNode.at, h2], h3⟩

end proofs

/-- `parse` returns exactly when every entry, at any depth, has a supported type, and throws a NeoFOAM exception otherwise. -/
theorem C55_succeeds (T : LeafTypes) (d : Dict) :
    ((∃ n, gkoParse T d = .ok n) ↔ ∀ p a, (Any.dict d).at p = some a → Supported T a) ∧
    ((∃ p a, (Any.dict d).at p = some a ∧ ¬ Supported T a) → gkoParse T d = .throw .neofoam) := by
  rcases gkoParse_spec T _ d (Nat.le_refl _) with ⟨h, p, a, hp, ha⟩ | ⟨m, h, hs, -⟩
  · refine ⟨⟨fun ⟨n, hn⟩ => ?_, fun H => absurd (H p a hp) ha⟩, fun _ => h⟩
    rw [h] at hn; cases hn
  · exact ⟨⟨fun _ => hs, fun _ => ⟨_, h⟩⟩, fun ⟨p, a, hp, ha⟩ => absurd (hs p a hp) ha⟩

/-- The configuration has, at every path of keys, the dictionary's value at that path: nothing is dropped, added or moved. -/
theorem C55_values (T : LeafTypes) (d : Dict) (n : PNode) (h : gkoParse T d = .ok n) (p : List String) :
    match (Any.dict d).at p with
    | none => n.at p = none
    | some (.dict _) => ∃ m, n.at p = some (.map m)
    | some a => ∃ v, n.at p = some v ∧ LeafOf T a v := by
  rcases gkoParse_spec T _ d (Nat.le_refl _) with ⟨h', -⟩ | ⟨m, h', -, h1, h2, h3⟩
  · rw [h] at h'; cases h'
  · rw [h] at h'; cases h'
    cases hp : (Any.dict d).at p with
    | none => exact h1 p hp
    | some a =>
      cases a with
      | dict d' => exact h2 p d' hp
      | _ => exact h3 p _ hp (by simp)

/-- With different types the value is determined. -/
theorem C55_value_unique (T : LeafTypes) (hT : [T.cstr, T.uint, T.dbl, T.flt].Nodup) (a : Any) (v w : PNode) (hv : LeafOf T a v)
    (hw : LeafOf T a w) : v = w := by
  simp at hT
  obtain ⟨⟨h1, h2, h3⟩, ⟨h4, h5⟩, h6⟩ := hT
  cases hv with
  | str s => cases hw; rfl
  | int s => cases hw; rfl
  | _ =>
    generalize hq : Any.«opaque» _ _ = q at hw
    cases hw <;> simp_all <;> omega

/-- The hypotheses can be met: a nested configuration, one with an unsupported type (64-bit integer) deep inside. -/
example : ∃ T : LeafTypes, [T.cstr, T.uint, T.dbl, T.flt].Nodup ∧
    (∃ n, gkoParse T [("type", .str "solver::Cg"), ("criteria", .dict [("iteration", .int 100), ("tol", .opaque T.dbl 7)])] = .ok n) ∧
    gkoParse T [("type", .str "solver::Cg"), ("criteria", .dict [("iteration", .i64 100)])] = .throw .neofoam := by
  refine ⟨⟨0, 1, 2, 3, fun _ => "", id, id⟩, by decide, ?_, ?_⟩
  · have inner : gkoParse ⟨0, 1, 2, 3, fun _ => "", id, id⟩ [("iteration", .int 100), ("tol", .opaque 2 7)] =
        .ok (.map [("iteration", .int 100), ("tol", .real 7)]) := by rw [gkoParse_eq]; rfl
    have e1 : nodeOf ⟨0, 1, 2, 3, fun _ => "", id, id⟩ [("type", .str "solver::Cg"), ("criteria", .dict [("iteration", .int 100), ("tol", .opaque 2 7)])]
        "criteria" = .ok (.map [("iteration", .int 100), ("tol", .real 7)]) := inner
    have e2 : nodeOf ⟨0, 1, 2, 3, fun _ => "", id, id⟩ [("type", .str "solver::Cg"), ("criteria", .dict [("iteration", .int 100), ("tol", .opaque 2 7)])]
        "type" = .ok (.str "solver::Cg") := rfl
    rw [gkoParse_eq]
    refine ⟨.map [("type", .str "solver::Cg"), ("criteria", .map [("iteration", .int 100), ("tol", .real 7)])], ?_⟩
    have ek : Dict.keys [("type", .str "solver::Cg"), ("criteria", .dict [("iteration", .int 100), ("tol", .opaque 2 7)])] = ["type", "criteria"] := rfl
    simp only [ek]
    rw [List.foldlM_cons, e2, Res.ok_bind, Res.pure_eq, Res.ok_bind, List.foldlM_cons, e1]
    rfl
  · refine (C55_succeeds _ _).2 ⟨["criteria", "iteration"], .i64 100, rfl, ?_⟩
    rintro (⟨d, h⟩ | ⟨v, h⟩) <;> cases h

end NeoFOAM
