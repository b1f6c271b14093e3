import Verif.Props.C48_Schemes

/-!
# C48, operators whose schemes are not read from the scheme dictionary by `build`

An operator can be given a dictionary at construction, whose entries name the schemes directly, or no scheme at all.
-/
namespace NeoFOAM
variable {K V : Type}

theorem schemeName_dict (entry : String) (d : Dict) (s : String) (j : Input) :
    (Input.dict d).schemeName entry = .ok (s, j) ↔ AMap.find? d entry = some (.str s) ∧ j = .dict d := by
  simp only [Input.schemeName, Dict.get, Dict.index, AMap.at?]
  cases AMap.find? d entry with
  | none => simp [bind, Res.bind]
  | some a =>
    simp only [Res.ok_bind]
    constructor
    · intro h
      cases a <;> cases h
      exact ⟨rfl, rfl⟩
    · rintro ⟨h, rfl⟩
      cases h
      rfl

/-- **C48, schemes given at construction**: an interpolation created from a dictionary is the one named by the entry
`surfaceInterpolation`; the dictionary is not changed. -/
theorem C48_direct_interpolation (d : Dict) (s : InterpScheme) (j : Input) :
    createInterp (.dict d) = .ok (s, j) ↔ AMap.find? d "surfaceInterpolation" = some (.str s.word) ∧ j = .dict d := by
  unfold createInterp
  rw [Res.bind_eq_ok]
  constructor
  · rintro ⟨⟨k, i⟩, h1, h2⟩
    obtain ⟨g1, rfl⟩ := (schemeName_dict _ _ _ _).1 h1
    simp only [interpFactory_create] at h2
    rw [Res.bind_eq_ok] at h2
    obtain ⟨x, h2, h3⟩ := h2
    cases h3
    rw [interpOfWord_ok] at h2
    subst h2
    exact ⟨g1, rfl⟩
  · rintro ⟨h1, rfl⟩
    refine ⟨(s.word, .dict d), (schemeName_dict _ _ _ _).2 ⟨h1, rfl⟩, ?_⟩
    simp only [interpFactory_create, (interpOfWord_ok _ s).2 rfl, Res.ok_bind]

/-- **C48, schemes given at construction**: a face-normal gradient created from a dictionary is the one named by the entry
`faceNormalGradient`. -/
theorem C48_direct_faceGrad (d : Dict) (q : FaceGradScheme) (j : Input) :
    createFaceGrad (.dict d) = .ok (q, j) ↔ AMap.find? d "faceNormalGradient" = some (.str "uncorrected") ∧ j = .dict d := by
  unfold createFaceGrad
  rw [Res.bind_eq_ok]
  constructor
  · rintro ⟨⟨k, i⟩, h1, h2⟩
    obtain ⟨g1, rfl⟩ := (schemeName_dict _ _ _ _).1 h1
    simp only [faceGradFactory_create] at h2
    split at h2
    · next h => subst h; cases h2; exact ⟨g1, rfl⟩
    · cases h2
  · rintro ⟨h1, rfl⟩
    refine ⟨("uncorrected", .dict d), (schemeName_dict _ _ _ _).2 ⟨h1, rfl⟩, ?_⟩
    simp only [faceGradFactory_create, if_true]

/-- **C48, schemes given at construction**: `DivOperator(type, flux, phi, dictionary)` succeeds exactly if the entry
`DivOperator` is the word `Gauss` and the entry `surfaceInterpolation` names an interpolation, which is then used. -/
theorem C48_direct_div (d : Dict) (s : InterpScheme) (j : Input) :
    createDiv (.dict d) = .ok (s, j) ↔ AMap.find? d "DivOperator" = some (.str "Gauss") ∧
      AMap.find? d "surfaceInterpolation" = some (.str s.word) ∧ j = .dict d := by
  unfold createDiv
  rw [Res.bind_eq_ok]
  constructor
  · rintro ⟨⟨k, i⟩, h1, h2⟩
    obtain ⟨g1, rfl⟩ := (schemeName_dict _ _ _ _).1 h1
    simp only [divFactory_create] at h2
    split at h2
    · next h => subst h; exact ⟨g1, (C48_direct_interpolation d s j).1 h2⟩
    · cases h2
  · rintro ⟨h1, h2⟩
    refine ⟨("Gauss", .dict d), (schemeName_dict _ _ _ _).2 ⟨h1, rfl⟩, ?_⟩
    simp only [divFactory_create, if_true]
    exact (C48_direct_interpolation d s j).2 h2

/-- **C48, schemes given at construction**: `LaplacianOperator(type, gamma, phi, dictionary)` succeeds exactly if the entry
`LaplacianOperator` is the word `Gauss`, `surfaceInterpolation` names an interpolation and `faceNormalGradient` the
uncorrected gradient. -/
theorem C48_direct_laplacian (d : Dict) (s : InterpScheme) (q : FaceGradScheme) (j : Input) :
    createLaplacian (.dict d) = .ok ((s, q), j) ↔ AMap.find? d "LaplacianOperator" = some (.str "Gauss") ∧
      AMap.find? d "surfaceInterpolation" = some (.str s.word) ∧
      AMap.find? d "faceNormalGradient" = some (.str "uncorrected") ∧ j = .dict d := by
  have hctor : gaussLaplacianCtor (.dict d) = .ok ((s, q), j) ↔ AMap.find? d "surfaceInterpolation" = some (.str s.word) ∧
      AMap.find? d "faceNormalGradient" = some (.str "uncorrected") ∧ j = .dict d := by
    unfold gaussLaplacianCtor
    rw [Res.bind_eq_ok]
    constructor
    · rintro ⟨⟨s', i⟩, h1, h2⟩
      obtain ⟨g1, rfl⟩ := (C48_direct_interpolation _ _ _).1 h1
      rw [Res.bind_eq_ok] at h2
      obtain ⟨⟨q', i⟩, h2, h3⟩ := h2
      cases h3
      exact ⟨g1, (C48_direct_faceGrad _ _ _).1 h2⟩
    · rintro ⟨h1, h2⟩
      refine ⟨(s, .dict d), (C48_direct_interpolation _ _ _).2 ⟨h1, rfl⟩, ?_⟩
      rw [Res.bind_eq_ok]
      exact ⟨(q, j), (C48_direct_faceGrad _ q _).2 h2, rfl⟩
  unfold createLaplacian
  rw [Res.bind_eq_ok]
  constructor
  · rintro ⟨⟨k, i⟩, h1, h2⟩
    obtain ⟨g1, rfl⟩ := (schemeName_dict _ _ _ _).1 h1
    simp only [laplacianFactory_create] at h2
    split at h2
    · next h => subst h; exact ⟨g1, hctor.1 h2⟩
    · cases h2
  · rintro ⟨h1, h2⟩
    refine ⟨("Gauss", .dict d), (schemeName_dict _ _ _ _).2 ⟨h1, rfl⟩, ?_⟩
    simp only [laplacianFactory_create, if_true]
    exact hctor.2 h2

/-- **C48, no scheme**: a divergence or Laplacian operator that was never given a scheme stops the program when it is used,
explicitly or implicitly, on every executor; no result is computed. -/
theorem C48_unbuilt [Field K] [LinearOrder K] (e : ExecKind) (m : Mesh K) (sp : SparsityPattern) (w δ : List K)
    (junk : Nat → K) (f p : String) (flux : List K) (φ : TimeState K K → VolField K K) (ty : OpType) (c : Coeff K)
    (st : TimeState K K) (t dt : K) (o : OpModel K K)
    (ho : o = (divTerm e m sp w junk f p flux φ ty c).model none st ∨
      o = (laplacianTerm e m sp δ junk f p flux φ ty c).model none st) :
    (ty = .explicit → ∀ src out, explStep t dt src o out ↔ out = .abort) ∧
    (ty = .implicit → ∀ ls out, implStep t dt ls o out ↔ out = .abort) := by
  rcases ho with rfl | rfl <;> refine ⟨?_, ?_⟩ <;> rintro rfl x out <;> exact Iff.rfl

/-- The hypotheses can be met: a dictionary of entries for a Laplacian. -/
example : createLaplacian (.dict [("LaplacianOperator", .str "Gauss"), ("surfaceInterpolation", .str "upwind"),
    ("faceNormalGradient", .str "uncorrected")]) = .ok ((.upwind, .uncorrected), .dict [("LaplacianOperator", .str "Gauss"),
      ("surfaceInterpolation", .str "upwind"), ("faceNormalGradient", .str "uncorrected")]) :=
  (C48_direct_laplacian _ .upwind .uncorrected _).2 ⟨rfl, rfl, rfl, rfl⟩

end NeoFOAM
