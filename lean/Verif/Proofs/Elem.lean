import Verif.Model.LinearSystem
import Verif.Proofs.ParElem

/-! # Element-wise kernels (proof side) -/
namespace NeoFOAM

theorem elemKernel_det {α : Type} (e : ExecKind) (start stop : Nat) (body : Nat → Res (α → α))
    (g : Nat → α → α) (a : List α) (hs : stop ≤ a.length)
    (hb : ∀ i, start ≤ i → i < stop → body i = .ok (g i)) (out : Res (List α)) :
    elemKernel e start stop body a out ↔
      out = .ok (a.mapIdx fun i x => if start ≤ i ∧ i < stop then g i x else x) := by
  have hm : (List.range' start (stop - start)).mapM body
      = .ok ((List.range' start (stop - start)).map g) :=
    mapM_ok body g _ (fun i hi => by rw [List.mem_range'_1] at hi; exact hb i (by omega) (by omega))
  have hg : (a.mapIdx fun i x => if start ≤ i ∧ i < stop then
      ((List.range' start (stop - start)).map g).getD (i - start) id x else x)
      = a.mapIdx fun i x => if start ≤ i ∧ i < stop then g i x else x := by
    congr 1; funext i x
    by_cases h : start ≤ i ∧ i < stop
    · have hlt : i - start < stop - start := by omega
      rw [if_pos h, if_pos h]
      simp [List.getD, hlt]
      congr 1; omega
    · rw [if_neg h, if_neg h]
  refine Iff.trans (NR.bind_def _ _ _) ?_
  constructor
  · rintro ⟨r, hr, h⟩
    rw [show r = _ from hr, hm] at h
    have := (parElem_det e a start stop _ hs out).1 h
    rw [this, hg]
  · intro h
    refine ⟨_, rfl, ?_⟩
    rw [hm]
    refine (parElem_det e a start stop _ hs out).2 ?_
    rw [h, hg]

theorem elemKernel_ok {α : Type} (e : ExecKind) (n : Nat) (body : Nat → Res (α → α))
    (g : Nat → α → α) (a : List α) (hs : n = a.length)
    (hb : ∀ i, i < n → body i = .ok (g i)) :
    (elemKernel e 0 n body a).Ok (fun r => r = a.mapIdx g) := by
  intro out hout
  refine ⟨_, (elemKernel_det e 0 n body g a (by omega) (fun i _ hi => hb i hi) out).1 hout, ?_⟩
  apply List.ext_getElem
  · simp
  · intro i h1 h2
    simp only [List.length_mapIdx] at h1
    simp [show i < n by omega]

theorem elemKernel_runs {α : Type} (e : ExecKind) (start stop : Nat) (body : Nat → Res (α → α)) (a : List α) :
    (elemKernel e start stop body a).Runs := by
  refine NR.Runs.bind ⟨_, rfl⟩ ?_
  intro fs _
  obtain ⟨l, hl⟩ := Schedule.exists e ((List.range' start (stop - start)).map
      fun i => Act.plain (A := Unit) i () i ((fs.getD (i - start) id : α → α)))
  cases h : runActs Mem.step (⟨fun _ => a, fun _ => none⟩ : Mem Unit α) l with
  | ok s => exact ⟨_, l, hl, by rw [h]⟩
  | throw x => exact ⟨_, l, hl, by rw [h]⟩
  | abort => exact ⟨_, l, hl, by rw [h]⟩
  | ub => exact ⟨_, l, hl, by rw [h]⟩

end NeoFOAM
