import Verif.Props.C28_Boundary

/-!
# C28, continued: lists of surface conditions, and the conditions made for all patches at once
-/
namespace NeoFOAM
variable {K V : Type}

section proofs

theorem length_eq_of_get {α : Type} {l l' : List α} (h : ∀ i : Nat, l[i]? = none ↔ l'[i]? = none) : l.length = l'.length := by
  have h1 := (h l.length).1 (by simp)
  have h2 := (h l'.length).2 (by simp)
  rw [List.getElem?_eq_none_iff] at h1 h2
  omega

/-- A condition keeps the sizes. -/
theorem surface_sizes (e : ExecKind) (m : Mesh K) (h : m.WF) (φ φ' : SurfField V) (h1 : φ.internal.length = m.nFaces)
    (h2 : φ.bValue.length = m.nBoundaryFaces) (h3 : φ.bRefValue.length = m.nBoundaryFaces) (c : SurfaceBoundary V)
    (hp : c.patch.end_ ≤ m.nBoundaryFaces) (hr : c.correct e m φ (.ok φ')) :
    φ'.internal.length = m.nFaces ∧ φ'.bValue.length = m.nBoundaryFaces ∧ φ'.bRefValue.length = m.nBoundaryFaces := by
  obtain ⟨ψ, e1, e2, e3, e4⟩ := C28_surface e m h φ h1 h2 h3 c hp
  obtain rfl : φ' = ψ := by
    have := (e1 _).1 hr
    cases this
    rfl
  have hf := h.faces
  have key : ∀ b, (φ'.bValue[b]? = none ↔ φ.bValue[b]? = none) ∧ (φ'.bRefValue[b]? = none ↔ φ.bRefValue[b]? = none) ∧
      (φ'.internal[m.nInternalFaces + b]? = none ↔ φ.internal[m.nInternalFaces + b]? = none) := by
    intro b
    by_cases hb : c.patch.Has b ∧ ∃ v, c.kind = .fixedValue v
    · obtain ⟨hb, v, hv⟩ := hb
      obtain ⟨k1, k2, k3⟩ := e2 b hb v hv
      have hlt : b < m.nBoundaryFaces := by have := hb.2; omega
      rw [k1, k2, k3]
      refine ⟨?_, ?_, ?_⟩ <;> simp only [reduceCtorEq, List.getElem?_eq_none_iff, false_iff] <;> omega
    · have hb' : ¬ c.patch.Has b ∨ ∀ v, c.kind ≠ .fixedValue v := by
        by_cases hh : c.patch.Has b
        · exact Or.inr fun v hv => hb ⟨hh, v, hv⟩
        · exact Or.inl hh
      obtain ⟨k1, k2, k3⟩ := e3 b hb'
      rw [k1, k2, k3]
      exact ⟨Iff.rfl, Iff.rfl, Iff.rfl⟩
  refine ⟨?_, ?_, ?_⟩
  · rw [← h1]
    apply length_eq_of_get
    intro i
    by_cases hi : i < m.nInternalFaces
    · rw [e4 i hi]
    · have := (key (i - m.nInternalFaces)).2.2
      rwa [show m.nInternalFaces + (i - m.nInternalFaces) = i by omega] at this
  · rw [← h2]; exact length_eq_of_get fun i => (key i).1
  · rw [← h3]; exact length_eq_of_get fun i => (key i).2.1

end proofs

/-- The condition stores something at boundary face `b`. -/
def SurfaceBoundary.Sets (c : SurfaceBoundary V) (b : Nat) (v : V) : Prop := c.patch.Has b ∧ c.kind = .fixedValue v

/-- **C28, all conditions of a surface field**: there is one outcome on every executor and schedule; at every boundary face the last
condition that sets it has its value in the boundary lists and behind the internal faces; faces no condition sets keep their values, and so
do all internal faces. -/
theorem C28_surface_all (e : ExecKind) (m : Mesh K) (h : m.WF) : ∀ (cs : List (SurfaceBoundary V)) (φ : SurfField V),
    φ.internal.length = m.nFaces → φ.bValue.length = m.nBoundaryFaces → φ.bRefValue.length = m.nBoundaryFaces →
    (∀ c ∈ cs, c.patch.end_ ≤ m.nBoundaryFaces) →
    ∃ φ', (∀ out, correctSurfaceConditions e m cs φ out ↔ out = .ok φ') ∧
      (∀ pre c post b v, cs = pre ++ c :: post → c.Sets b v → (∀ c' ∈ post, ∀ w, ¬ c'.Sets b w) →
        φ'.bValue[b]? = some v ∧ φ'.bRefValue[b]? = some v ∧ φ'.internal[m.nInternalFaces + b]? = some v) ∧
      (∀ b, (∀ c ∈ cs, ∀ w, ¬ c.Sets b w) → φ'.bValue[b]? = φ.bValue[b]? ∧ φ'.bRefValue[b]? = φ.bRefValue[b]? ∧
        φ'.internal[m.nInternalFaces + b]? = φ.internal[m.nInternalFaces + b]?) ∧
      ∀ f < m.nInternalFaces, φ'.internal[f]? = φ.internal[f]? := by
  intro cs
  induction cs with
  | nil =>
    intro φ _ _ _ _
    exact ⟨φ, fun _ => Iff.rfl, fun pre c post b v he => by simp at he, fun _ _ => ⟨rfl, rfl, rfl⟩, fun _ _ => rfl⟩
  | cons c0 cs ih =>
    intro φ h1 h2 h3 hp
    have hp0 := hp c0 List.mem_cons_self
    obtain ⟨φ1, d1, s1, k1, i1⟩ := C28_surface e m h φ h1 h2 h3 c0 hp0
    obtain ⟨l1, l2, l3⟩ := surface_sizes e m h φ φ1 h1 h2 h3 c0 hp0 ((d1 _).2 rfl)
    obtain ⟨φ2, d2, s2, k2, i2⟩ := ih φ1 l1 l2 l3 fun c hc => hp c (List.mem_cons_of_mem _ hc)
    refine ⟨φ2, fun out => (NR.bind_iff d1 out).trans (d2 out), ?_, ?_, fun f hf => (i2 f hf).trans (i1 f hf)⟩
    · intro pre c post b v he hs hpost
      cases pre with
      | nil =>
        simp only [List.nil_append, List.cons.injEq] at he
        obtain ⟨rfl, rfl⟩ := he
        obtain ⟨a1, a2, a3⟩ := k2 b hpost
        obtain ⟨b1, b2, b3⟩ := s1 b hs.1 v hs.2
        exact ⟨a1.trans b1, a2.trans b2, a3.trans b3⟩
      | cons p pre =>
        simp only [List.cons_append, List.cons.injEq] at he
        exact s2 pre c post b v he.2 hs hpost
    · intro b hno
      obtain ⟨a1, a2, a3⟩ := k2 b fun c hc => hno c (List.mem_cons_of_mem _ hc)
      have hb : ¬ c0.patch.Has b ∨ ∀ v, c0.kind ≠ .fixedValue v := by
        by_cases hh : c0.patch.Has b
        · exact Or.inr fun v hv => hno c0 List.mem_cons_self v ⟨hh, hv⟩
        · exact Or.inl hh
      obtain ⟨b1, b2, b3⟩ := k1 b hb
      exact ⟨a1.trans b1, a2.trans b2, a3.trans b3⟩

section createBCs
variable [Field K] [AddCommGroup V] [Module K V]

private theorem mapM_create (cast : Any → Res V) (m : Mesh K) (hv : ValidOffsets m.bnd.offset m.nBoundaryFaces)
    (hn : m.bnd.offset.length = m.nBoundaries + 1) (type : String) (kind : VolBCKind V)
    (hk : ∀ offs p P, Patch.ofOffsets offs p = .ok P → VolumeBoundary.create cast offs (Dict.ofInitList [("type", .str type)]) p = .ok ⟨P, kind⟩) :
    ∃ cs, createBCs cast m type = .ok cs ∧ cs.length = m.nBoundaries ∧
      ((List.range m.nBoundaries).map fun p => (p, Dict.ofInitList [("type", .str type)])).mapM
        (fun p => VolumeBoundary.create cast m.bnd.offset p.2 p.1) = .ok cs ∧
      ∀ p < m.nBoundaries, ∃ c s t, cs[p]? = some c ∧ c.kind = kind ∧ boundaryRange m.bnd.offset p = .ok (s, t) ∧ c.patch.range = (s, t) := by
  have hP : ∀ p < m.nBoundaries, ∃ P : Patch, Patch.ofOffsets m.bnd.offset p = .ok P ∧ ∃ s t, boundaryRange m.bnd.offset p = .ok (s, t) ∧ P.range = (s, t) := by
    intro p hp
    obtain ⟨s, t, h1, P, h2, -, h3, -⟩ := C12_patch_partial m.bnd.offset _ hv p (by omega)
    exact ⟨P, h2, s, t, h1, h3⟩
  haveI : Inhabited Patch := ⟨⟨0, 0, 0⟩⟩
  choose! P hP1 hP2 using hP
  have hm : createBCs cast m type = .ok ((List.range m.nBoundaries).map fun p => ⟨P p, kind⟩) := by
    unfold createBCs
    refine mapM_ok _ _ _ fun p hp => hk _ _ _ (hP1 p (List.mem_range.1 hp))
  refine ⟨_, hm, by simp, ?_, ?_⟩
  · rw [List.mapM_map]
    exact hm
  · intro p hp
    obtain ⟨s, t, h1, h2⟩ := hP2 p hp
    exact ⟨⟨P p, kind⟩, s, t, by simp [hp], rfl, h1, h2⟩

/-- **C28, `createExtrapolatedBCs`**: on a mesh with valid offsets it returns one condition per patch, in patch order, and correcting the
boundary conditions made this way gives every boundary face the value of its cell; the cells keep their values. -/
theorem C28_extrapolatedBCs (e : ExecKind) (m : Mesh K) (h : m.WF) (hv : ValidOffsets m.bnd.offset m.nBoundaryFaces)
    (hn : m.bnd.offset.length = m.nBoundaries + 1) (cast : Any → Res V) (φ : VolField K V) (ho : φ.On m) :
    ∃ cs φ', createBCs cast m "extrapolated" = .ok cs ∧ cs.length = m.nBoundaries ∧
      (∀ p < m.nBoundaries, ∃ c s t, cs[p]? = some c ∧ c.kind = .extrapolated ∧ boundaryRange m.bnd.offset p = .ok (s, t) ∧ c.patch.range = (s, t)) ∧
      (∀ out, correctBoundaryConditions e m cs φ out ↔ out = .ok φ') ∧ φ'.internal = φ.internal ∧
      ∀ b < m.nBoundaryFaces, (φ'.entry b).value = φ.cell (m.fc b) := by
  obtain ⟨cs, h1, h2, h3, h4⟩ := mapM_create cast m hv hn "extrapolated" .extrapolated (by
    intro offs p P hP
    unfold VolumeBoundary.create
    rw [hP]
    rfl)
  obtain ⟨φ', g1, g2, g3, -⟩ := C28_patches e m h hv φ ho cast _ (by simp [List.map_map, Function.comp_def, List.nodup_range]) cs h3
  refine ⟨cs, φ', h1, h2, h4, g1, g2, fun b hb => ?_⟩
  obtain ⟨p, ⟨s, t, hr, hsb, hbt⟩, -⟩ := (C12_partition _ _ hv).1 b hb
  have hp : p < m.nBoundaries := by
    obtain ⟨-, k⟩ := boundaryRange_eq_ok hr
    have := (List.getElem?_eq_some_iff.1 k).1
    omega
  obtain ⟨P, hP, -⟩ : ∃ P, Patch.ofOffsets m.bnd.offset p = .ok P ∧ True := by
    obtain ⟨_, _, -, P, hP, -⟩ := C12_patch_partial m.bnd.offset _ hv p (by omega)
    exact ⟨P, hP, trivial⟩
  have := g3 (p, Dict.ofInitList [("type", .str "extrapolated")]) (List.mem_map.2 ⟨p, List.mem_range.2 hp, rfl⟩) ⟨P, .extrapolated⟩ s t
    (by unfold VolumeBoundary.create; rw [hP]; rfl) hr b hsb hbt
  exact this.1

/-- **C28, `createCalculatedBCs`**: one condition per patch; correcting them changes nothing. -/
theorem C28_calculatedBCs (e : ExecKind) (m : Mesh K) (hv : ValidOffsets m.bnd.offset m.nBoundaryFaces)
    (hn : m.bnd.offset.length = m.nBoundaries + 1) (cast : Any → Res V) :
    ∃ cs, createBCs cast m "calculated" = .ok cs ∧ cs.length = m.nBoundaries ∧
      ∀ (φ : VolField K V) out, correctBoundaryConditions e m cs φ out ↔ out = .ok φ := by
  obtain ⟨cs, h1, h2, h3, h4⟩ := mapM_create cast m hv hn "calculated" (.calculated : VolBCKind V) (by
    intro offs p P hP
    unfold VolumeBoundary.create
    rw [hP]
    rfl)
  refine ⟨cs, h1, h2, fun φ out => ?_⟩
  have hk : ∀ c ∈ cs, c.kind = .calculated := by
    intro c hc
    obtain ⟨p, hp, rfl⟩ := List.getElem_of_mem hc
    obtain ⟨c, s, t, k1, k2, -⟩ := h4 p (by omega)
    rw [List.getElem?_eq_getElem hp] at k1
    cases k1
    exact k2
  clear h1 h2 h3 h4
  induction cs generalizing out with
  | nil => exact Iff.rfl
  | cons c cs ih =>
    have h0 : ∀ out, c.correct e m φ out ↔ out = .ok φ := by
      intro out
      unfold VolumeBoundary.correct
      rw [hk c List.mem_cons_self]
      exact Iff.rfl
    exact (NR.bind_iff h0 out).trans (ih out fun c hc => hk c (List.mem_cons_of_mem _ hc))

omit [Field K] [AddCommGroup V] [Module K V] in
/-- **C28, surface fields have no extrapolated condition**: asking for it stops the program on every mesh with a patch. -/
theorem C28_surface_extrapolated (m : Mesh K) (hv : ValidOffsets m.bnd.offset m.nBoundaryFaces)
    (hn : m.bnd.offset.length = m.nBoundaries + 1) (h0 : 0 < m.nBoundaries) (cast : Any → Res V) :
    createSurfaceBCs cast m "extrapolated" = .abort := by
  unfold createSurfaceBCs
  obtain ⟨n, hn'⟩ := Nat.exists_eq_succ_of_ne_zero h0.ne'
  rw [hn', Nat.succ_eq_add_one, List.range_succ_eq_map, List.mapM_cons]
  obtain ⟨_, _, -, P, hP, -⟩ := C12_patch_partial m.bnd.offset _ hv 0 (by omega)
  have : SurfaceBoundary.create cast m.bnd.offset (Dict.ofInitList [("type", .str "extrapolated")]) 0 = .abort := by
    unfold SurfaceBoundary.create
    rw [hP]
    rfl
  rw [this]
  rfl

omit [Field K] [AddCommGroup V] [Module K V] in
/-- **C28, the conditions of face fields computed by the library**: `createCalculatedBCs` for surfaces returns one condition per patch, and
correcting them changes nothing. -/
theorem C28_surface_calculated (e : ExecKind) (m : Mesh K) (hv : ValidOffsets m.bnd.offset m.nBoundaryFaces)
    (hn : m.bnd.offset.length = m.nBoundaries + 1) (cast : Any → Res V) :
    ∃ cs, createSurfaceBCs cast m "calculated" = .ok cs ∧ cs.length = m.nBoundaries ∧
      ∀ (φ : SurfField V) out, correctSurfaceConditions e m cs φ out ↔ out = .ok φ := by
  have hP : ∀ p < m.nBoundaries, ∃ P : Patch, Patch.ofOffsets m.bnd.offset p = .ok P := by
    intro p hp
    obtain ⟨s, t, -, P, h2, -⟩ := C12_patch_partial m.bnd.offset _ hv p (by omega)
    exact ⟨P, h2⟩
  haveI : Inhabited Patch := ⟨⟨0, 0, 0⟩⟩
  choose! P hP1 using hP
  have hm : createSurfaceBCs cast m "calculated" = .ok ((List.range m.nBoundaries).map fun p => ⟨P p, .calculated⟩) := by
    unfold createSurfaceBCs
    refine mapM_ok _ _ _ fun p hp => ?_
    unfold SurfaceBoundary.create
    rw [hP1 p (List.mem_range.1 hp)]
    rfl
  refine ⟨_, hm, by simp, fun φ out => ?_⟩
  generalize List.range m.nBoundaries = l
  induction l generalizing out with
  | nil => exact Iff.rfl
  | cons c cs ih => exact (NR.bind_iff (a := φ) (fun _ => Iff.rfl) out).trans (ih out)

omit [Field K] [AddCommGroup V] [Module K V] in
/-- **C28, dictionaries of surface conditions**: a known type gives the condition of that type for the patch, with the value the dictionary
holds; an unknown type stops the program. -/
theorem C28_surface_create (cast : Any → Res V) (offs : List Nat) (n p : Nat) (hv : ValidOffsets offs n)
    (hp : p + 1 < offs.length) (d : Dict) (ty : String) (hty : AMap.find? d "type" = some (.str ty)) {s t : Nat}
    (hr : boundaryRange offs p = .ok (s, t)) :
    (∀ a v, ty = "fixedValue" → AMap.find? d "fixedValue" = some a → cast a = .ok v →
      ∃ c, SurfaceBoundary.create cast offs d p = .ok c ∧ c.kind = .fixedValue v ∧ c.patch.range = (s, t)) ∧
    (ty = "calculated" → ∃ c, SurfaceBoundary.create cast offs d p = .ok c ∧ c.kind = .calculated ∧ c.patch.range = (s, t)) ∧
    (ty = "empty" → ∃ c, SurfaceBoundary.create cast offs d p = .ok c ∧ c.kind = .empty ∧ c.patch.range = (s, t)) ∧
    (ty ∉ ["fixedValue", "calculated", "empty"] → SurfaceBoundary.create cast offs d p = .abort) := by
  obtain ⟨s', t', hr', P, hP, -, hR, -⟩ := C12_patch_partial offs n hv p hp
  rw [hr] at hr'
  cases hr'
  have hget : Dict.get .str d "type" = .ok (.str ty) := by
    simp [Dict.get, Dict.index, AMap.at?, hty, anyCast, Any.ty]
  unfold SurfaceBoundary.create
  rw [hP, hget]
  simp only [Res.ok_bind]
  refine ⟨?_, ?_, ?_, ?_⟩
  · rintro a v rfl ha hc
    refine ⟨⟨P, .fixedValue v⟩, ?_, rfl, hR⟩
    simp [Dict.index, AMap.at?, ha, hc]
  · rintro rfl; exact ⟨⟨P, .calculated⟩, rfl, rfl, hR⟩
  · rintro rfl; exact ⟨⟨P, .empty⟩, rfl, rfl, hR⟩
  · intro hn
    simp only [List.mem_cons, List.not_mem_nil, or_false, not_or] at hn
    split <;> rename_i heq <;> first | rfl | (simp only [Any.str.injEq] at heq; simp [heq] at hn)

end createBCs

/-- A mesh meeting the hypotheses, with two patches. -/
example : ∃ m : Mesh ℚ, m.WF ∧ ValidOffsets m.bnd.offset m.nBoundaryFaces ∧ m.bnd.offset.length = m.nBoundaries + 1 ∧ m.nBoundaries = 2 := by
  let m : Mesh ℚ := { row3 with bnd := { row3.bnd with offset := [0, 1, 2] }, nBoundaries := 2 }
  refine ⟨m, ?_, ⟨by simp [m], by show [0, 1, 2].Pairwise (· ≤ ·); decide, rfl, rfl⟩, rfl, rfl⟩
  obtain ⟨a1, a2, a3, a4, a5, a6, a7, a8, a9, a10, a11, a12, a13, a14, a15, a16, a17, a18, a19⟩ := row3_wf
  exact ⟨a1, a2, a3, a4, a5, a6, a7, a8, a9, a10, a11, a12, a13, a14, a15, a16, a17, a18, a19⟩

end NeoFOAM
