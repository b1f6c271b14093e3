import Verif.Model.Schemes
import Verif.Props.C18_Divergence
import Verif.Props.C32_Steady

/-!
# C48 – solve uses the discretisation schemes named in the scheme dictionary
-/
namespace NeoFOAM
variable {K V : Type}

/-- The words of the scheme dictionary for one operator: what is left to read of the token list stored under `key` in the
sub-dictionary `sect`. -/
def Dict.words (d : Dict) (sect key : String) : Option (List Any) :=
  match AMap.find? d sect with
  | some (.dict sub) => match AMap.find? sub key with
    | some (.tokens ts n) => some (ts.drop n)
    | _ => none
  | _ => none

/-- The word that names an interpolation. -/
def InterpScheme.word : InterpScheme → String
  | .linear => "linear"
  | .upwind => "upwind"

section proofs

theorem nextTok_str (ts : List Any) (n : Nat) : (⟨ts, n⟩ : Tokens).nextTok .str = match ts.drop n with
    | [] => .throw .outOfRange
    | .str s :: _ => .ok (.str s, ⟨ts, n + 1⟩)
    | _ => .throw .badAnyCast := by
  unfold Tokens.nextTok Tokens.get
  rcases Nat.lt_or_ge n ts.length with h | h
  · rw [List.drop_eq_getElem_cons h]
    simp only [List.getElem?_eq_getElem h]
    cases ts[n] <;> simp [anyCast, Any.ty]
  · rw [List.drop_eq_nil_of_le h, List.getElem?_eq_none h]
    rfl

theorem schemeName_tokens (entry : String) (ts : List Any) (n : Nat) :
    (Input.tokens ⟨ts, n⟩).schemeName entry = match ts.drop n with
      | [] => .throw .outOfRange
      | .str s :: _ => .ok (s, .tokens ⟨ts, n + 1⟩)
      | _ => .throw .badAnyCast := by
  simp only [Input.schemeName, nextTok_str]
  cases ts.drop n with
  | nil => rfl
  | cons a l => cases a <;> rfl

theorem drop_succ_of_cons {ts : List Any} {n : Nat} {a : Any} {l : List Any} (h : ts.drop n = a :: l) : ts.drop (n + 1) = l := by
  rw [← List.tail_drop, h, List.tail_cons]

/-- What the words of an interpolation select. -/
def interpOfWord (s : String) : Res InterpScheme :=
  if s = "linear" then .ok .linear else if s = "upwind" then .ok .upwind else .abort

theorem interpFactory_create (s : String) (i : Input) : interpFactory.create s i = (interpOfWord s >>= fun x => .ok (x, i)) := by
  simp only [Factory.create, Factory.keyExistsOrError, interpFactory, Factory.addSubType, Factory.empty, AMap.at?, AMap.find?_assign, AMap.find?_nil, interpOfWord]
  by_cases h2 : s = "upwind"
  · subst h2; rfl
  · by_cases h1 : s = "linear"
    · subst h1; rfl
    · simp [h1, h2]

theorem faceGradFactory_create (s : String) (i : Input) :
    faceGradFactory.create s i = if s = "uncorrected" then .ok (.uncorrected, i) else .abort := by
  simp only [Factory.create, Factory.keyExistsOrError, faceGradFactory, Factory.addSubType, Factory.empty, AMap.at?, AMap.find?_assign, AMap.find?_nil]
  by_cases h1 : s = "uncorrected" <;> simp [h1]

theorem divFactory_create (s : String) (i : Input) : divFactory.create s i = if s = "Gauss" then createInterp i else .abort := by
  simp only [Factory.create, Factory.keyExistsOrError, divFactory, Factory.addSubType, Factory.empty, AMap.at?, AMap.find?_assign, AMap.find?_nil]
  by_cases h1 : s = "Gauss" <;> simp [h1]

theorem laplacianFactory_create (s : String) (i : Input) :
    laplacianFactory.create s i = if s = "Gauss" then gaussLaplacianCtor i else .abort := by
  simp only [Factory.create, Factory.keyExistsOrError, laplacianFactory, Factory.addSubType, Factory.empty, AMap.at?, AMap.find?_assign, AMap.find?_nil]
  by_cases h1 : s = "Gauss" <;> simp [h1]

/-- Reading an interpolation from the words left. -/
def interpWords : List Any → Res InterpScheme
  | [] => .throw .outOfRange
  | .str s :: _ => interpOfWord s
  | _ => .throw .badAnyCast

theorem createInterp_tokens (ts : List Any) (n : Nat) :
    createInterp (.tokens ⟨ts, n⟩) = (interpWords (ts.drop n) >>= fun s => .ok (s, .tokens ⟨ts, n + 1⟩)) := by
  simp only [createInterp, schemeName_tokens]
  cases ts.drop n with
  | nil => rfl
  | cons a l =>
    cases a with
    | str s => simp only [interpWords, Res.ok_bind, interpFactory_create]
    | _ => rfl

/-- Reading a face-normal gradient from the words left. -/
def faceGradWords : List Any → Res FaceGradScheme
  | [] => .throw .outOfRange
  | .str s :: _ => if s = "uncorrected" then .ok .uncorrected else .abort
  | _ => .throw .badAnyCast

theorem createFaceGrad_tokens (ts : List Any) (n : Nat) :
    createFaceGrad (.tokens ⟨ts, n⟩) = (faceGradWords (ts.drop n) >>= fun s => .ok (s, .tokens ⟨ts, n + 1⟩)) := by
  simp only [createFaceGrad, schemeName_tokens]
  cases ts.drop n with
  | nil => rfl
  | cons a l =>
    cases a with
    | str s =>
      simp only [faceGradWords, Res.ok_bind, faceGradFactory_create]
      split <;> rfl
    | _ => rfl

/-- Reading a divergence scheme from the words. -/
def divWords : List Any → Res InterpScheme
  | [] => .throw .outOfRange
  | .str s :: l => if s = "Gauss" then interpWords l else .abort
  | _ => .throw .badAnyCast

theorem createDiv_tokens (ts : List Any) (n : Nat) :
    createDiv (.tokens ⟨ts, n⟩) = (divWords (ts.drop n) >>= fun s => .ok (s, .tokens ⟨ts, n + 2⟩)) := by
  simp only [createDiv, schemeName_tokens]
  cases h : ts.drop n with
  | nil => rfl
  | cons a l =>
    cases a with
    | str s =>
      simp only [divWords, Res.ok_bind, divFactory_create]
      split
      · rw [createInterp_tokens, drop_succ_of_cons h]
      · rfl
    | _ => rfl

/-- Reading a Laplacian scheme from the words. -/
def laplacianWords : List Any → Res (InterpScheme × FaceGradScheme)
  | [] => .throw .outOfRange
  | .str s :: l => if s = "Gauss" then (do
      let x ← interpWords l
      let g ← faceGradWords l.tail
      return (x, g)) else .abort
  | _ => .throw .badAnyCast

theorem createLaplacian_tokens (ts : List Any) (n : Nat) :
    createLaplacian (.tokens ⟨ts, n⟩) = (laplacianWords (ts.drop n) >>= fun s => .ok (s, .tokens ⟨ts, n + 3⟩)) := by
  simp only [createLaplacian, schemeName_tokens]
  cases h : ts.drop n with
  | nil => rfl
  | cons a l =>
    cases a with
    | str s =>
      simp only [laplacianWords, Res.ok_bind, laplacianFactory_create]
      split
      · rw [gaussLaplacianCtor, createInterp_tokens, drop_succ_of_cons h]
        cases interpWords l with
        | ok x =>
          simp only [Res.ok_bind, createFaceGrad_tokens]
          rw [show ts.drop (n + 1 + 1) = l.tail by rw [← List.tail_drop, drop_succ_of_cons h]]
          cases faceGradWords l.tail <;> rfl
        | _ => rfl
      · rfl
    | _ => rfl

theorem schemeTokens_dict (d : Dict) (sect key : String) :
    (∃ ts n, (Input.dict d).schemeTokens sect key = .ok ⟨ts, n⟩ ∧ d.words sect key = some (ts.drop n)) ∨
    ((∃ x, (Input.dict d).schemeTokens sect key = .throw x) ∧ d.words sect key = none) := by
  simp only [Input.schemeTokens, Dict.subDict, Dict.index, AMap.at?, Dict.words, Dict.get]
  cases AMap.find? d sect with
  | none => exact Or.inr ⟨⟨_, rfl⟩, rfl⟩
  | some a =>
    cases a with
    | dict sub =>
      simp only [Res.ok_bind]
      cases AMap.find? sub key with
      | none => exact Or.inr ⟨⟨_, rfl⟩, rfl⟩
      | some b =>
        cases b with
        | tokens ts n => exact Or.inl ⟨ts, n, rfl, rfl⟩
        | _ => exact Or.inr ⟨⟨_, rfl⟩, rfl⟩
    | _ => exact Or.inr ⟨⟨_, rfl⟩, rfl⟩

/-- The name under which the divergence of `p` by the flux `f` is looked up. -/
abbrev divKey (f p : String) : String := "div(" ++ f ++ "," ++ p ++ ")"
/-- The name under which the Laplacian of `p` with the diffusivity `g` is looked up. -/
abbrev laplacianKey (g p : String) : String := "laplacian(" ++ g ++ "," ++ p ++ ")"

theorem divBuild_words (f p : String) (d : Dict) :
    (∃ l, d.words "divSchemes" (divKey f p) = some l ∧ divBuild f p (.dict d) = divWords l) ∨
    (d.words "divSchemes" (divKey f p) = none ∧ ∃ x, divBuild f p (.dict d) = .throw x) := by
  rcases schemeTokens_dict d "divSchemes" (divKey f p) with ⟨ts, n, h, hw⟩ | ⟨⟨x, h⟩, hw⟩
  · refine Or.inl ⟨_, hw, ?_⟩
    rw [divBuild, h]
    simp only [Res.ok_bind, createDiv_tokens]
    cases divWords (ts.drop n) <;> rfl
  · refine Or.inr ⟨hw, x, ?_⟩
    rw [divBuild, h]
    rfl

theorem laplacianBuild_words (g p : String) (d : Dict) :
    (∃ l, d.words "laplacianSchemes" (laplacianKey g p) = some l ∧ laplacianBuild g p (.dict d) = laplacianWords l) ∨
    (d.words "laplacianSchemes" (laplacianKey g p) = none ∧ ∃ x, laplacianBuild g p (.dict d) = .throw x) := by
  rcases schemeTokens_dict d "laplacianSchemes" (laplacianKey g p) with ⟨ts, n, h, hw⟩ | ⟨⟨x, h⟩, hw⟩
  · refine Or.inl ⟨_, hw, ?_⟩
    rw [laplacianBuild, h]
    simp only [Res.ok_bind, createLaplacian_tokens]
    cases laplacianWords (ts.drop n) <;> rfl
  · refine Or.inr ⟨hw, x, ?_⟩
    rw [laplacianBuild, h]
    rfl

theorem interpOfWord_ok (s : String) (x : InterpScheme) : interpOfWord s = .ok x ↔ s = x.word := by
  unfold interpOfWord
  by_cases h1 : s = "linear"
  · subst h1; cases x <;> simp [InterpScheme.word]
  · by_cases h2 : s = "upwind"
    · subst h2; cases x <;> simp [InterpScheme.word]
    · cases x <;> simp [h1, h2, InterpScheme.word]

theorem interpWords_ok (l : List Any) (x : InterpScheme) : interpWords l = .ok x ↔ ∃ r, l = .str x.word :: r := by
  cases l with
  | nil => simp [interpWords]
  | cons a r =>
    cases a with
    | str s => simp [interpWords, interpOfWord_ok]
    | _ => simp [interpWords]

theorem interpWords_abort (l : List Any) :
    interpWords l = .abort ↔ ∃ b r, l = .str b :: r ∧ ∀ x : InterpScheme, b ≠ x.word := by
  cases l with
  | nil => simp [interpWords]
  | cons a r =>
    cases a with
    | str s =>
      have : interpOfWord s = .abort ↔ ∀ x : InterpScheme, s ≠ x.word := by
        unfold interpOfWord
        constructor
        · intro h x
          split at h
          · cases h
          · split at h
            · cases h
            · cases x <;> simpa [InterpScheme.word]
        · intro h
          have h1 : s ≠ "linear" := h .linear
          have h2 : s ≠ "upwind" := h .upwind
          simp [h1, h2]
      simp only [interpWords, this]
      constructor
      · intro h; exact ⟨s, r, rfl, h⟩
      · rintro ⟨b, r', h, hb⟩
        cases h
        exact hb
    | _ => simp [interpWords]

theorem interpWords_ub (l : List Any) : interpWords l ≠ .ub := by
  cases l with
  | nil => simp [interpWords]
  | cons a r =>
    cases a with
    | str s => simp only [interpWords, interpOfWord]; split <;> [simp; (split <;> simp)]
    | _ => simp [interpWords]

end proofs

/-- **C48, divergence**: `build` from a scheme dictionary succeeds with the interpolation `s` exactly when the dictionary's
entry for this flux and field reads `Gauss` followed by the name of `s`. -/
theorem C48_div (f p : String) (d : Dict) (s : InterpScheme) :
    divBuild f p (.dict d) = .ok s ↔
      ∃ rest, d.words "divSchemes" ("div(" ++ f ++ "," ++ p ++ ")") = some (.str "Gauss" :: .str s.word :: rest) := by
  rcases divBuild_words f p d with ⟨l, hw, hb⟩ | ⟨hw, x, hb⟩
  · rw [hb, hw]
    cases l with
    | nil => simp [divWords]
    | cons a r =>
      cases a with
      | str a =>
        by_cases ha : a = "Gauss"
        · subst ha
          simp [divWords, interpWords_ok]
        · simp [divWords, ha]
      | _ => simp [divWords]
  · rw [hb, hw]; simp

/-- **C48, divergence, names nobody registered** stop the program; in all other cases (no entry, entry of another type, word
of another type, list too short) `build` throws. -/
theorem C48_div_unknown (f p : String) (d : Dict) :
    (divBuild f p (.dict d) = .abort ↔ ∃ a rest, d.words "divSchemes" ("div(" ++ f ++ "," ++ p ++ ")") = some (.str a :: rest) ∧
      (a ≠ "Gauss" ∨ ∃ b rest', rest = .str b :: rest' ∧ ∀ s : InterpScheme, b ≠ s.word)) ∧
    divBuild f p (.dict d) ≠ .ub := by
  rcases divBuild_words f p d with ⟨l, hw, hb⟩ | ⟨hw, x, hb⟩
  · rw [hb, hw]
    cases l with
    | nil => simp [divWords]
    | cons a r =>
      cases a with
      | str a =>
        by_cases ha : a = "Gauss"
        · subst ha
          simp only [divWords, if_true, interpWords_abort]
          refine ⟨⟨fun ⟨b, r', h, hb⟩ => ⟨_, _, rfl, Or.inr ⟨b, r', h, hb⟩⟩, ?_⟩, interpWords_ub r⟩
          rintro ⟨a, rest, h, h2 | h2⟩
          · cases h; exact absurd rfl h2
          · cases h; exact h2
        · simp only [divWords, if_neg ha, ne_eq, reduceCtorEq, not_false_eq_true, and_true, true_iff]
          exact ⟨a, r, rfl, Or.inl ha⟩
      | _ => simp [divWords]
  · rw [hb, hw]; simp

/-- **C48, Laplacian**: `build` succeeds exactly when the entry for this diffusivity and field reads `Gauss`, the name of an
interpolation and `uncorrected`; the strategy is made of these. -/
theorem C48_laplacian (g p : String) (d : Dict) (s : InterpScheme) (q : FaceGradScheme) :
    laplacianBuild g p (.dict d) = .ok (s, q) ↔
      ∃ rest, d.words "laplacianSchemes" ("laplacian(" ++ g ++ "," ++ p ++ ")") =
        some (.str "Gauss" :: .str s.word :: .str "uncorrected" :: rest) := by
  have hq : ∀ q : FaceGradScheme, q = .uncorrected := fun q => by cases q; rfl
  rcases laplacianBuild_words g p d with ⟨l, hw, hb⟩ | ⟨hw, x, hb⟩
  · rw [hb, hw]
    cases l with
    | nil => simp [laplacianWords]
    | cons a r =>
      cases a with
      | str a =>
        by_cases ha : a = "Gauss"
        · subst ha
          simp only [laplacianWords, if_true]
          constructor
          · intro h
            rw [Res.bind_eq_ok] at h
            obtain ⟨x, hx, h⟩ := h
            rw [Res.bind_eq_ok] at h
            obtain ⟨q', hq', h⟩ := h
            obtain ⟨r', rfl⟩ := (interpWords_ok _ _).1 hx
            cases h
            rw [List.tail_cons] at hq'
            cases r' with
            | nil => cases hq'
            | cons b r'' =>
              cases b with
              | str b =>
                simp only [faceGradWords] at hq'
                by_cases hb2 : b = "uncorrected"
                · subst hb2; exact ⟨r'', rfl⟩
                · rw [if_neg hb2] at hq'; cases hq'
              | _ => cases hq'
          · rintro ⟨rest, h⟩
            cases h
            have h1 : interpWords (.str s.word :: .str "uncorrected" :: rest) = .ok s := (interpWords_ok _ _).2 ⟨_, rfl⟩
            rw [h1, hq q]
            rfl
        · simp [laplacianWords, ha]
      | _ => simp [laplacianWords]
  · rw [hb, hw]; simp

/-- **C48, Laplacian, names nobody registered** stop the program; otherwise a failing `build` throws. -/
theorem C48_laplacian_unknown (g p : String) (d : Dict) :
    (laplacianBuild g p (.dict d) = .abort ↔
      ∃ a rest, d.words "laplacianSchemes" ("laplacian(" ++ g ++ "," ++ p ++ ")") = some (.str a :: rest) ∧
      (a ≠ "Gauss" ∨ ∃ b rest', rest = .str b :: rest' ∧ ((∀ s : InterpScheme, b ≠ s.word) ∨
        ∃ c rest'', rest' = .str c :: rest'' ∧ c ≠ "uncorrected"))) ∧
    laplacianBuild g p (.dict d) ≠ .ub := by
  rcases laplacianBuild_words g p d with ⟨l, hw, hb⟩ | ⟨hw, x, hb⟩
  · rw [hb, hw]
    cases l with
    | nil => simp [laplacianWords]
    | cons a r =>
      cases a with
      | str a =>
        by_cases ha : a = "Gauss"
        · subst ha
          simp only [laplacianWords, if_true]
          cases hi : interpWords r with
          | ok x =>
            obtain ⟨r', rfl⟩ := (interpWords_ok _ _).1 hi
            simp only [List.tail_cons, Res.ok_bind]
            have hk : ∀ s : InterpScheme, ¬ ∀ s' : InterpScheme, s.word ≠ s'.word := fun s h => h s rfl
            cases r' with
            | nil =>
              refine ⟨⟨fun h => (by cases h), ?_⟩, (by intro h; cases h)⟩
              rintro ⟨a, rest, h, h2 | ⟨b, rest', h2, h3 | ⟨c, rest'', h3, h4⟩⟩⟩
              · cases h; exact absurd rfl h2
              · cases h; cases h2; exact absurd h3 (hk _)
              · cases h; cases h2; cases h3
            | cons b r'' =>
              cases b with
              | str b =>
                by_cases hb2 : b = "uncorrected"
                · subst hb2
                  refine ⟨⟨fun h => (by cases h), ?_⟩, (by intro h; cases h)⟩
                  rintro ⟨a, rest, h, h2 | ⟨b, rest', h2, h3 | ⟨c, rest'', h3, h4⟩⟩⟩
                  · cases h; exact absurd rfl h2
                  · cases h; cases h2; exact absurd h3 (hk _)
                  · cases h; cases h2; cases h3; exact absurd rfl h4
                · simp only [faceGradWords, if_neg hb2, Res.abort_bind]
                  refine ⟨⟨fun _ => ⟨_, _, rfl, Or.inr ⟨_, _, rfl, Or.inr ⟨b, r'', rfl, hb2⟩⟩⟩, fun _ => trivial⟩, (by intro h; cases h)⟩
              | _ =>
                refine ⟨⟨fun h => (by cases h), ?_⟩, (by intro h; cases h)⟩
                rintro ⟨a, rest, h, h2 | ⟨b, rest', h2, h3 | ⟨c, rest'', h3, h4⟩⟩⟩
                · cases h; exact absurd rfl h2
                · cases h; cases h2; exact absurd h3 (hk _)
                · cases h; cases h2; cases h3
          | abort =>
            obtain ⟨b, r', rfl, hbs⟩ := (interpWords_abort _).1 hi
            refine ⟨⟨fun _ => ⟨_, _, rfl, Or.inr ⟨_, _, rfl, Or.inl hbs⟩⟩, fun _ => rfl⟩, (by intro h; cases h)⟩
          | throw x =>
            refine ⟨⟨fun h => (by cases h), ?_⟩, (by intro h; cases h)⟩
            rintro ⟨a, rest, h, h2 | ⟨b, rest', h2, h3⟩⟩
            · cases h; exact absurd rfl h2
            · cases h
              subst h2
              rcases h3 with h3 | ⟨c, rest'', h3, h4⟩
              · rw [(interpWords_abort _).2 ⟨b, rest', rfl, h3⟩] at hi; cases hi
              · simp only [interpWords, interpOfWord] at hi
                split at hi
                · cases hi
                · split at hi <;> cases hi
          | ub => exact absurd hi (interpWords_ub r)
        · simp only [laplacianWords, if_neg ha, ne_eq, reduceCtorEq, not_false_eq_true, and_true, true_iff]
          exact ⟨a, r, rfl, Or.inl ha⟩
      | _ => simp [laplacianWords]
  · rw [hb, hw]; simp

/-- The strategy `s` is the one the scheme dictionary names for the operator; operators that take no scheme keep what they
have. -/
def Term.Uses (t : Term K V) (d : Dict) (s : Option Strategy) : Prop :=
  match t.kind with
  | .div f p => ∃ i rest, s = some (.div i) ∧
      d.words "divSchemes" ("div(" ++ f ++ "," ++ p ++ ")") = some (.str "Gauss" :: .str i.word :: rest)
  | .laplacian g p => ∃ i rest, s = some (.laplacian i .uncorrected) ∧
      d.words "laplacianSchemes" ("laplacian(" ++ g ++ "," ++ p ++ ")") =
        some (.str "Gauss" :: .str i.word :: .str "uncorrected" :: rest)
  | .plain => s = t.strategy

section proofs

theorem buildStrategy_iff (t : Term K V) (d : Dict) (s : Option Strategy) :
    t.kind.buildStrategy t.strategy (.dict d) = .ok s ↔ t.Uses d s := by
  unfold Term.Uses TermKind.buildStrategy
  cases t.kind with
  | div f p =>
    simp only
    rw [Res.bind_eq_ok]
    constructor
    · rintro ⟨i, hi, h⟩
      cases h
      obtain ⟨rest, hw⟩ := (C48_div f p d i).1 hi
      exact ⟨i, rest, rfl, hw⟩
    · rintro ⟨i, rest, rfl, hw⟩
      exact ⟨i, (C48_div f p d i).2 ⟨rest, hw⟩, rfl⟩
  | laplacian g p =>
    simp only
    rw [Res.bind_eq_ok]
    constructor
    · rintro ⟨⟨i, q⟩, hi, h⟩
      cases h
      cases q
      obtain ⟨rest, hw⟩ := (C48_laplacian g p d i .uncorrected).1 hi
      exact ⟨i, rest, rfl, hw⟩
    · rintro ⟨i, rest, rfl, hw⟩
      exact ⟨(i, .uncorrected), (C48_laplacian g p d i .uncorrected).2 ⟨rest, hw⟩, rfl⟩
  | plain =>
    simp only [Res.pure_eq, Res.ok.injEq]
    exact eq_comm

/-- What `build` makes of an operator, when it succeeds. -/
def Term.rebuilt (d : Dict) (t : Term K V) : Term K V :=
  match t.kind.buildStrategy t.strategy (.dict d) with
  | .ok s => { t with strategy := s }
  | _ => t

/-- `build` succeeds. -/
def Term.Buildable (d : Dict) (t : Term K V) : Prop := ∃ s, t.kind.buildStrategy t.strategy (.dict d) = .ok s

theorem rebuilt_kind (d : Dict) (t : Term K V) : (t.rebuilt d).kind = t.kind := by
  unfold Term.rebuilt; split <;> rfl

theorem rebuilt_model (d : Dict) (t : Term K V) : (t.rebuilt d).model = t.model := by
  unfold Term.rebuilt; split <;> rfl

theorem buildStrategy_cur (k : TermKind) (c c' : Option Strategy) (d d2 : Dict) (h : k.buildStrategy c (.dict d) = .ok c') :
    k.buildStrategy c' (.dict d2) = k.buildStrategy c (.dict d2) := by
  cases k with
  | plain => cases h; rfl
  | _ => rfl

theorem rebuilt_strategy (d d2 : Dict) (t : Term K V) (h : t.Buildable d) :
    (t.rebuilt d).kind.buildStrategy (t.rebuilt d).strategy (.dict d2) = t.kind.buildStrategy t.strategy (.dict d2) := by
  obtain ⟨s, hs⟩ := h
  unfold Term.rebuilt
  rw [hs]
  exact buildStrategy_cur t.kind _ _ d d2 hs

theorem rebuilt_rebuilt (d d2 : Dict) (t : Term K V) (h : t.Buildable d) (h2 : t.Buildable d2) : (t.rebuilt d).rebuilt d2 = t.rebuilt d2 := by
  obtain ⟨s2, hs2⟩ := h2
  have h3 := rebuilt_strategy d d2 t h
  rw [hs2] at h3
  have key : ∀ t' : Term K V, t'.kind.buildStrategy t'.strategy (.dict d2) = .ok s2 → t'.rebuilt d2 = { t' with strategy := s2 } := by
    intro t' h'
    unfold Term.rebuilt
    rw [h']
  have e1 := key _ h3
  have e2 := key _ hs2
  rw [e1, e2]
  have hk := rebuilt_kind d t
  have hm := rebuilt_model d t
  cases hh : t.rebuilt d
  rw [hh] at hk hm
  cases hk; cases hm
  rfl

theorem buildable_rebuilt (d d2 : Dict) (t : Term K V) (h : t.Buildable d) : (t.rebuilt d).Buildable d2 ↔ t.Buildable d2 := by
  unfold Term.Buildable
  rw [rebuilt_strategy d d2 t h]

theorem Term.build_eq (d : Dict) (t : Term K V) (h : t.Buildable d) : t.build (.dict d) = .ok (t.rebuilt d) := by
  obtain ⟨s, hs⟩ := h
  simp [Term.build, Term.rebuilt, hs]

theorem Term.build_ok {d : Dict} {t t' : Term K V} (h : t.build (.dict d) = .ok t') : t.Buildable d := by
  unfold Term.build at h
  rw [Res.bind_eq_ok] at h
  obtain ⟨s, hs, -⟩ := h
  exact ⟨s, hs⟩

/-- The operators after building those with a handle in `hs`. -/
def TermHeap.rebuilt (d : Dict) (hs : List Nat) (heap : TermHeap K V) : TermHeap K V :=
  heap.mapIdx fun i t => if i ∈ hs then t.rebuilt d else t

theorem buildAt_iff (d : Dict) (heap heap' : TermHeap K V) (h : Nat) :
    buildAt d heap h = .ok heap' ↔ (∃ t, heap[h]? = some t ∧ t.Buildable d) ∧ heap' = TermHeap.rebuilt d [h] heap := by
  have hr : ∀ t, heap[h]? = some t → heap.set h (t.rebuilt d) = TermHeap.rebuilt d [h] heap := by
    intro t ht
    apply List.ext_getElem?
    intro i
    simp only [TermHeap.rebuilt, List.getElem?_mapIdx, List.getElem?_set, List.mem_singleton]
    by_cases hi : h = i
    · subst hi
      obtain ⟨this, rfl⟩ := List.getElem?_eq_some_iff.1 ht
      simp [this]
    · simp only [if_neg hi, if_neg (Ne.symm hi)]
      cases heap[i]? <;> rfl
  unfold buildAt
  constructor
  · intro hb
    cases ht : heap[h]? with
    | none => rw [ht] at hb; cases hb
    | some t =>
      rw [ht] at hb
      simp only at hb
      rw [Res.bind_eq_ok] at hb
      obtain ⟨t', h1, h2⟩ := hb
      have hbl := Term.build_ok h1
      rw [Term.build_eq d t hbl] at h1
      cases h1; cases h2
      exact ⟨⟨t, rfl, hbl⟩, hr t ht⟩
  · rintro ⟨⟨t, ht, hbl⟩, rfl⟩
    rw [ht]
    simp only [Term.build_eq d t hbl, Res.ok_bind]
    rw [hr t ht]
    rfl

theorem build_fold (d : Dict) (hs : List Nat) : ∀ heap heap' : TermHeap K V, hs.foldlM (buildAt d) heap = .ok heap' ↔
    (∀ h ∈ hs, ∃ t, heap[h]? = some t ∧ t.Buildable d) ∧ heap' = TermHeap.rebuilt d hs heap := by
  induction hs with
  | nil =>
    intro heap heap'
    have : TermHeap.rebuilt d [] heap = heap := by
      simp only [TermHeap.rebuilt, List.not_mem_nil, if_false]
      exact List.mapIdx_eq_iff.2 (fun i => by cases heap[i]? <;> rfl)
    rw [this]
    simp [eq_comm]
  | cons h hs ih =>
    intro heap heap'
    rw [List.foldlM_cons, Res.bind_eq_ok]
    have key : (∃ t, heap[h]? = some t ∧ t.Buildable d) →
        (((∀ h' ∈ hs, ∃ t, (TermHeap.rebuilt d [h] heap)[h']? = some t ∧ t.Buildable d) ↔
          ∀ h' ∈ hs, ∃ t, heap[h']? = some t ∧ t.Buildable d) ∧
        ((∀ h' ∈ hs, ∃ t, heap[h']? = some t ∧ t.Buildable d) →
          TermHeap.rebuilt d hs (TermHeap.rebuilt d [h] heap) = TermHeap.rebuilt d (h :: hs) heap)) := by
      rintro ⟨t, ht, hbl⟩
      constructor
      · apply forall_congr'; intro h'
        apply forall_congr'; intro _
        simp only [TermHeap.rebuilt, List.getElem?_mapIdx, List.mem_singleton]
        by_cases e : h' = h
        · subst e
          simp only [ht, Option.map_some, if_true, Option.some.injEq, exists_eq_left']
          exact buildable_rebuilt d d t hbl
        · simp only [if_neg e]
          cases heap[h']? <;> simp
      · intro hall
        apply List.ext_getElem?
        intro i
        simp only [TermHeap.rebuilt, List.getElem?_mapIdx, List.mem_singleton, List.mem_cons]
        cases hi : heap[i]? with
        | none => rfl
        | some ti =>
          simp only [Option.map_some]
          by_cases e : i = h
          · subst e
            rw [ht] at hi; cases hi
            by_cases e2 : i ∈ hs
            · simp [e2, rebuilt_rebuilt d d t hbl hbl]
            · simp [e2]
          · simp [e]
    constructor
    · rintro ⟨h1, hb, hf⟩
      obtain ⟨hex, rfl⟩ := (buildAt_iff d heap h1 h).1 hb
      obtain ⟨hall, rfl⟩ := (ih _ _).1 hf
      have hall' := (key hex).1.1 hall
      exact ⟨by intro h' hm; rcases List.mem_cons.1 hm with rfl | hm; exacts [hex, hall' h' hm], (key hex).2 hall'⟩
    · rintro ⟨hall, rfl⟩
      have hex := hall h List.mem_cons_self
      have hall' : ∀ h' ∈ hs, ∃ t, heap[h']? = some t ∧ t.Buildable d := fun h' hm => hall h' (List.mem_cons_of_mem _ hm)
      refine ⟨_, (buildAt_iff d heap _ h).2 ⟨hex, rfl⟩, (ih _ _).2 ⟨(key hex).1.2 hall', ((key hex).2 hall').symm⟩⟩

theorem Expr.build_eq_fold (eqn : Expr) (d : Dict) (heap : TermHeap K V) :
    eqn.build d heap = (eqn.temporal ++ eqn.spatial).foldlM (buildAt d) heap := by
  rw [List.foldlM_append]
  rfl

theorem rebuilt_uses {d : Dict} {t : Term K V} (h : t.Buildable d) : t.Uses d (t.rebuilt d).strategy := by
  obtain ⟨s, hs⟩ := h
  have : (t.rebuilt d).strategy = s := by unfold Term.rebuilt; rw [hs]
  rw [this]
  exact (buildStrategy_iff t d s).1 hs

end proofs

/-- **C48, the expression**: building an expression succeeds exactly when every one of its operators finds its scheme in the
dictionary; then each of them has the scheme the dictionary names and is otherwise as before, and all other operators
(copies the expression was composed from, other expressions) are untouched. -/
theorem C48_build (eqn : Expr) (d : Dict) (heap heap' : TermHeap K V) :
    eqn.build d heap = .ok heap' ↔
      heap'.length = heap.length ∧
      (∀ h ∈ eqn.temporal ++ eqn.spatial, ∃ t s, heap[h]? = some t ∧ t.Uses d s ∧ heap'[h]? = some { t with strategy := s }) ∧
      ∀ h, h ∉ eqn.temporal ++ eqn.spatial → heap'[h]? = heap[h]? := by
  rw [Expr.build_eq_fold, build_fold]
  constructor
  · rintro ⟨hall, rfl⟩
    refine ⟨by simp [TermHeap.rebuilt], fun h hm => ?_, fun h hm => ?_⟩
    · obtain ⟨t, ht, s, hs⟩ := hall h hm
      refine ⟨t, s, ht, (buildStrategy_iff t d s).1 hs, ?_⟩
      simp only [TermHeap.rebuilt, List.getElem?_mapIdx, ht, Option.map_some, if_pos hm, Term.rebuilt, hs]
    · simp only [TermHeap.rebuilt, List.getElem?_mapIdx, if_neg hm]
      cases heap[h]? <;> rfl
  · rintro ⟨hlen, hin, hout⟩
    refine ⟨fun h hm => ?_, ?_⟩
    · obtain ⟨t, s, ht, hu, -⟩ := hin h hm
      exact ⟨t, ht, s, (buildStrategy_iff t d s).2 hu⟩
    · apply List.ext_getElem?
      intro i
      simp only [TermHeap.rebuilt, List.getElem?_mapIdx]
      by_cases hm : i ∈ eqn.temporal ++ eqn.spatial
      · obtain ⟨t, s, ht, hu, h'⟩ := hin i hm
        have hs := (buildStrategy_iff t d s).2 hu
        simp only [h', ht, Option.map_some, if_pos hm, Term.rebuilt, hs]
      · rw [hout i hm]
        simp only [if_neg hm]
        cases heap[i]? <;> rfl

/-- **C48, building never corrupts anything**: with valid handles it succeeds, throws or stops the program. -/
theorem C48_build_safe (eqn : Expr) (d : Dict) (heap : TermHeap K V) (hh : ∀ h ∈ eqn.temporal ++ eqn.spatial, h < heap.length) :
    eqn.build d heap ≠ .ub := by
  rw [Expr.build_eq_fold]
  revert hh
  generalize eqn.temporal ++ eqn.spatial = hs
  induction hs generalizing heap with
  | nil => intro _ h; cases h
  | cons h hs ih =>
    intro hh
    rw [List.foldlM_cons]
    have hl := hh h List.mem_cons_self
    have hb : buildAt d heap h ≠ .ub := by
      unfold buildAt
      rw [List.getElem?_eq_getElem hl]
      simp only [Term.build]
      generalize heap[h] = t
      unfold TermKind.buildStrategy
      cases t.kind with
      | plain => intro h; cases h
      | div f p =>
        have h1 := (C48_div_unknown f p d).2
        cases hx : divBuild f p (.dict d) <;> simp_all
      | laplacian f p =>
        have h1 := (C48_laplacian_unknown f p d).2
        cases hx : laplacianBuild f p (.dict d) <;> simp_all
    cases hx : buildAt d heap h with
    | ok heap1 =>
      have := ((buildAt_iff d heap heap1 h).1 hx).2
      exact ih heap1 (fun h' hm => by
        rw [this]; simpa [TermHeap.rebuilt] using hh h' (List.mem_cons_of_mem _ hm))
    | ub => exact absurd hx hb
    | _ => intro h; cases h

/-- **C48, again and with another dictionary**: a further solve uses exactly what the dictionary of that solve names; schemes
built before do not matter. In particular building twice from one dictionary is the same as building once. -/
theorem C48_rebuild (eqn : Expr) (d d2 : Dict) (heap h1 : TermHeap K V) (hb : eqn.build d heap = .ok h1) (h2 : TermHeap K V) :
    eqn.build d2 h1 = .ok h2 ↔ eqn.build d2 heap = .ok h2 := by
  rw [Expr.build_eq_fold, build_fold] at hb ⊢
  rw [Expr.build_eq_fold, build_fold]
  obtain ⟨hall, rfl⟩ := hb
  generalize eqn.temporal ++ eqn.spatial = hs at *
  have e1 : (∀ h ∈ hs, ∃ t, (TermHeap.rebuilt d hs heap)[h]? = some t ∧ t.Buildable d2) ↔
      ∀ h ∈ hs, ∃ t, heap[h]? = some t ∧ t.Buildable d2 := by
    apply forall_congr'; intro h
    apply forall_congr'; intro hm
    obtain ⟨t, ht, hbl⟩ := hall h hm
    simp only [TermHeap.rebuilt, List.getElem?_mapIdx, ht, Option.map_some, if_pos hm, Option.some.injEq, exists_eq_left']
    exact buildable_rebuilt d d2 t hbl
  rw [e1]
  refine and_congr_right (fun hall2 => ?_)
  have e2 : TermHeap.rebuilt d2 hs (TermHeap.rebuilt d hs heap) = TermHeap.rebuilt d2 hs heap := by
    apply List.ext_getElem?
    intro i
    simp only [TermHeap.rebuilt, List.getElem?_mapIdx]
    cases hi : heap[i]? with
    | none => rfl
    | some t =>
      simp only [Option.map_some]
      by_cases hm : i ∈ hs
      · obtain ⟨t1, ht1, hb1⟩ := hall i hm
        obtain ⟨t2, ht2, hb2⟩ := hall2 i hm
        rw [hi] at ht1 ht2
        cases ht1; cases ht2
        simp [hm, rebuilt_rebuilt d d2 t hb1 hb2]
      · simp [hm]
  rw [e2]

/-- **C48, solve**: solving first builds the operators from `fvSchemes`; it returns exactly when that succeeds and solving
with the operators so built returns. -/
theorem C48_solve [Field K] (e : ExecKind) (m : Mesh K) (bcs : List (VolumeBoundary K)) (table : SolverTable K) (fvSchemes fvSolution : Dict)
    (eqn : Expr) (heap heap' : TermHeap K K) (st st' : TimeState K K) (t dt : K) :
    dslSolveBuild e m bcs table fvSchemes fvSolution eqn heap st t dt (.ok (heap', st')) ↔
      eqn.build fvSchemes heap = .ok heap' ∧ dslSolve e m bcs table fvSchemes fvSolution heap'.ops eqn st t dt (.ok st') := by
  unfold dslSolveBuild
  by_cases h0 : eqn.temporal.length = 0 ∧ eqn.spatial.length = 0
  · rw [if_pos h0, dslSolve, if_pos h0]
    constructor
    · intro h; cases h
    · rintro ⟨-, h⟩; cases h
  · rw [if_neg h0]
    constructor
    · intro hs
      obtain ⟨r, h1, h2⟩ := hs
      cases r with
      | ok heap1 =>
        obtain ⟨r2, h3, h4⟩ := h2
        cases r2 with
        | ok st1 =>
          cases h4
          exact ⟨h1.symm, h3⟩
        | _ => cases h4
      | _ => cases h2
    · rintro ⟨h1, h2⟩
      exact ⟨.ok heap', h1.symm, .ok st', h2, rfl⟩

/-- **C48, what is then computed**: after building, an explicit divergence operator of the expression adds, on every executor
and schedule, the Gauss sum of the face values of the interpolation the dictionary names. -/
theorem C48_explicit_div [Field K] [LinearOrder K] {m : Mesh K} (hm : m.WF) {φ : TimeState K K → VolField K K} {st : TimeState K K}
    (hφ : (φ st).On m) {w flux : List K} (hw : w.length = m.nFaces) (hfl : flux.length = m.nFaces) (sch : InterpScheme)
    {c : Coeff K} {v : Nat → K} (hc : c.On m.nCells v) (e : ExecKind) (sp : SparsityPattern) (junk : Nat → K) (f p : String)
    (d : Dict) (rest : List Any)
    (hd : d.words "divSchemes" ("div(" ++ f ++ "," ++ p ++ ")") = some (.str "Gauss" :: .str sch.word :: rest))
    (eqn : Expr) (heap heap' : TermHeap K K) (hb : eqn.build d heap = .ok heap') (h : Nat) (hmem : h ∈ eqn.spatial)
    (hh : heap[h]? = some (divTerm e m sp w junk f p flux φ .explicit c)) :
    ∃ o, (heap'.ops st)[h]? = some o ∧ ∀ t dt src, src.length = m.nCells → ∀ out,
      explStep t dt src o out ↔ out = .ok ((List.range m.nCells).map fun i =>
        src.getD i 0 + (v i / m.vol i) * m.netOutflow (fun x => ix flux x * Mesh.schemeFace sch m (ix w) (ix flux) (φ st) x) i) := by
  obtain ⟨-, hin, -⟩ := (C48_build eqn d heap heap').1 hb
  obtain ⟨t0, s, ht0, hu, h'⟩ := hin h (List.mem_append_right _ hmem)
  rw [hh] at ht0
  cases ht0
  obtain ⟨i, rest', rfl, hw'⟩ := hu
  have hi : i = sch := by
    have hw' := hd.symm.trans hw'
    have : sch.word = i.word := by injection hw' with hw'; injection hw' with _ hw'; injection hw' with hw' _; injection hw'
    cases sch <;> cases i <;> simp_all [InterpScheme.word]
  subst hi
  refine ⟨divOp e m sp (some i) w junk flux (φ st) .explicit c, ?_, ?_⟩
  · simp only [TermHeap.ops, List.getElem?_map, h', Option.map_some]
    rfl
  · intro t dt src hsrc out
    exact C18_div hm hφ hw hfl i hc e junk src hsrc out

/-- A token list held in an `Input` by the caller is **consumed** by creating a scheme from it: with no words left, creating
the same scheme again from the same `Input` throws. (`build` and the operators' constructors copy their input first.) -/
theorem C48_input_consumed (i i' : Input) (s : InterpScheme) (h : createInterp i = .ok (s, i')) :
    (∀ d, i = .dict d → i' = i) ∧
    (∀ ts n, i = .tokens ⟨ts, n⟩ → i' = .tokens ⟨ts, n + 1⟩ ∧ (ts.length = n + 1 → createInterp i' = .throw .outOfRange)) := by
  refine ⟨fun d hd => ?_, fun ts n hi => ?_⟩
  · subst hd
    simp only [createInterp, Input.schemeName] at h
    rw [Res.bind_eq_ok] at h
    obtain ⟨⟨k, j⟩, h1, h2⟩ := h
    rw [Res.bind_eq_ok] at h1
    obtain ⟨a, -, h1⟩ := h1
    have hj : j = .dict d := by
      cases a <;> cases h1
      rfl
    subst hj
    simp only [interpFactory_create] at h2
    rw [Res.bind_eq_ok] at h2
    obtain ⟨x, -, h2⟩ := h2
    cases h2
    rfl
  · subst hi
    rw [createInterp_tokens, Res.bind_eq_ok] at h
    obtain ⟨x, -, h⟩ := h
    cases h
    refine ⟨rfl, fun hl => ?_⟩
    rw [createInterp_tokens, List.drop_eq_nil_of_le (by omega)]
    rfl

/-- A scheme dictionary with entries for one divergence and one Laplacian. -/
def exampleSchemes : Dict :=
  [("divSchemes", .dict [("div(phi,U)", .tokens [.str "Gauss", .str "upwind"] 0)]),
   ("laplacianSchemes", .dict [("laplacian(nu,U)", .tokens [.str "Gauss", .str "linear", .str "uncorrected"] 0)])]

/-- The hypotheses can be met: both operators find their schemes in this dictionary. -/
example : divBuild "phi" "U" (.dict exampleSchemes) = .ok .upwind ∧
    laplacianBuild "nu" "U" (.dict exampleSchemes) = .ok (.linear, .uncorrected) ∧
    divBuild "phi" "T" (.dict exampleSchemes) = .throw .outOfRange :=
  ⟨rfl, rfl, rfl⟩

/-- A divergence and a Laplacian on three cells are built from this dictionary and added up in an expression. -/
example (sp : SparsityPattern) : ∃ heap' : TermHeap ℚ ℚ, (⟨[], [0, 1]⟩ : Expr).build exampleSchemes
    [divTerm .serial row3 sp [1, 1, 1, 1] (fun _ => 0) "phi" "U" [1, 1, 1, 1] (fun st => st.sol) .explicit Coeff.default,
     laplacianTerm .serial row3 sp [1, 1, 1, 1] (fun _ => 0) "nu" "U" [1, 1, 1, 1] (fun st => st.sol) .implicit Coeff.default]
    = .ok heap' :=
  ⟨_, rfl⟩

end NeoFOAM
