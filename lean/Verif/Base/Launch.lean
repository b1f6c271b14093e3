import Verif.Base.Kernel
import Verif.Base.NR
import Verif.Base.Sched

/-!
# Launching one kernel on a set of arrays
-/
namespace NeoFOAM
open Finset

variable {A : Type} {V : Type} [DecidableEq A]

/-- One `parallelFor(exec, {start, stop}, body)` (core/parallelAlgorithms.hpp:26-63): thread `i` performs the
accesses `body i`; a body whose own reads are undefined makes the launch undefined. -/
def launch (e : ExecKind) (start stop : Nat) (body : Nat → Res (List (Act A V))) (arrs : A → List V) :
    NR (A → List V) := fun out =>
  ∃ r, RunProg e [(List.range' start (stop - start)).mapM body] ⟨arrs, fun _ => none⟩ r ∧
    out = (r >>= fun s => .ok s.arr)

/-- A launch on one array. -/
def launch1 (e : ExecKind) (start stop : Nat) (body : Nat → Res (List (Act Unit V))) (a : List V) : NR (List V) := do
  let f ← launch e start stop body (fun _ => a)
  return f ()

section proofs

theorem NR.iff_of_ok_runs {α : Type} {R : NR α} {a : α} (h : R.Ok (fun x => x = a)) (hr : R.Runs) (out : Res α) :
    R out ↔ out = .ok a := by
  constructor
  · intro ho
    obtain ⟨x, rfl, rfl⟩ := h out ho
    rfl
  · rintro rfl
    obtain ⟨r, hr⟩ := hr
    obtain ⟨x, rfl, rfl⟩ := h r hr
    exact hr

theorem NR.Ok.of_iff {α : Type} {R : NR α} {a : α} (h : ∀ out, R out ↔ out = .ok a) : R.Ok (fun x => x = a) := by
  intro r hr
  exact ⟨a, (h r).1 hr, rfl⟩

theorem NR.Runs.of_iff {α : Type} {R : NR α} {a : α} (h : ∀ out, R out ↔ out = .ok a) : R.Runs :=
  ⟨_, (h _).2 rfl⟩

theorem NR.Runs.pure {α : Type} (a : α) : (Pure.pure a : NR α).Runs := ⟨_, rfl⟩
theorem NR.Runs.lift {α : Type} (r : Res α) : (NR.lift r).Runs := ⟨_, rfl⟩

/-- Sequencing of determined calls. -/
theorem NR.bind_iff {α β : Type} {R : NR α} {k : α → NR β} {a : α} (h : ∀ out, R out ↔ out = .ok a)
    (out : Res β) : (R >>= k) out ↔ k a out := by
  refine Iff.trans (NR.bind_def _ _ _) ?_
  constructor
  · rintro ⟨r, hr, hk⟩
    rw [(h r).1 hr] at hk
    exact hk
  · intro hk
    exact ⟨.ok a, (h _).2 rfl, hk⟩

theorem launch_runs (e : ExecKind) (start stop : Nat) (body : Nat → Res (List (Act A V))) (arrs : A → List V) :
    (launch e start stop body arrs).Runs := by
  obtain ⟨o, ho⟩ := RunProg.exists e [(List.range' start (stop - start)).mapM body]
    (⟨arrs, fun _ => none⟩ : Mem A V)
  exact ⟨_, o, ho, rfl⟩

theorem launch1_runs (e : ExecKind) (start stop : Nat) (body : Nat → Res (List (Act Unit V))) (a : List V) :
    (launch1 e start stop body a).Runs :=
  NR.Runs.bind (launch_runs _ _ _ _ _) (fun _ _ => NR.Runs.pure _)

variable [AddCommGroup V]

/-- A launch whose threads each add `δ i` and whose threads commute (or that runs on the serial executor). -/
theorem launch_ok (e : ExecKind) (start stop : Nat) (body : Nat → Res (List (Act A V)))
    (acts : Nat → List (Act A V)) (δ : Nat → A → Nat → V) (arrs : A → List V)
    (hb : ∀ i, start ≤ i → i < stop → body i = .ok (acts i))
    (hc : e = .serial ∨ ThreadsCommute Mem.step ((List.range' start (stop - start)).map acts))
    (ha : ∀ i, start ≤ i → i < stop → RunsAdd (fun a => (arrs a).length) (acts i) (δ i)) :
    (launch e start stop body arrs).Ok (fun arrs' => (∀ a, (arrs' a).length = (arrs a).length) ∧
      ∀ a i, i < (arrs a).length → (arrs' a).getD i 0 = (arrs a).getD i 0
        + ∑ k ∈ range (stop - start), δ (start + k) a i) := by
  rintro out ⟨r, hr, rfl⟩
  have hm : (List.range' start (stop - start)).mapM body
      = .ok ((List.range' start (stop - start)).map acts) :=
    mapM_ok body acts _ (fun i hi => by rw [List.mem_range'_1] at hi; exact hb i (by omega) (by omega))
  rw [hm] at hr
  obtain ⟨l, hl, hr⟩ := hr
  have hser : runActs Mem.step (⟨arrs, fun _ => none⟩ : Mem A V) l
      = runActs Mem.step ⟨arrs, fun _ => none⟩ ((List.range' start (stop - start)).map acts).flatten := by
    rcases hc with rfl | hc
    · rw [show l = _ from hl]
    · exact hl.run_eq_serial Mem.step hc _
  have hre : (List.range' start (stop - start)).map acts
      = (List.range (stop - start)).map (fun k => acts (start + k)) := by
    rw [List.range'_eq_map_range, List.map_map]; rfl
  have hra := RunsAdd.range (n := fun a => (arrs a).length) (fun k => acts (start + k))
    (fun k => δ (start + k)) (stop - start) (fun k hk => ha _ (by omega) (by omega))
  obtain ⟨s', hs', hadd⟩ := hra ⟨arrs, fun _ => none⟩ (fun _ => rfl)
  rw [hser, hre, hs'] at hr
  cases (show r = .ok s' from hr)
  refine ⟨s'.arr, rfl, hadd.1, fun a i hi => hadd.2 a i hi⟩

theorem launch1_ok (e : ExecKind) (start stop : Nat) (body : Nat → Res (List (Act Unit V)))
    (acts : Nat → List (Act Unit V)) (δ : Nat → Nat → V) (a : List V)
    (hb : ∀ i, start ≤ i → i < stop → body i = .ok (acts i))
    (hc : e = .serial ∨ ThreadsCommute Mem.step ((List.range' start (stop - start)).map acts))
    (ha : ∀ i, start ≤ i → i < stop → RunsAdd (fun _ => a.length) (acts i) (fun _ => δ i)) :
    (launch1 e start stop body a).Ok (fun a' => a'.length = a.length ∧
      ∀ i, i < a.length → a'.getD i 0 = a.getD i 0 + ∑ k ∈ range (stop - start), δ (start + k) i) := by
  refine NR.Ok.bind (launch_ok e start stop body acts (fun i _ => δ i) (fun _ => a) hb hc ha) ?_
  rintro f ⟨h1, h2⟩
  exact NR.Ok.pure ⟨h1 (), h2 ()⟩

theorem threadsCommute_addSub (start n : Nat) (acts : Nat → List (Act A V))
    (h : ∀ i, ∀ x ∈ acts i, x.IsAddSub) : ThreadsCommute Mem.step ((List.range' start n).map acts) :=
  threadsCommute_map List.nodup_range' (fun i _ j _ _ x hx y hy => comm_addSub (h i x hx) (h j y hy))

theorem list_eq_range_map {l : List V} {n : Nat} {g : Nat → V} (h1 : l.length = n)
    (h2 : ∀ i < n, l.getD i 0 = g i) : l = (List.range n).map g := by
  apply List.ext_getElem
  · simp [h1]
  · intro i ha hb
    have := h2 i (by omega)
    simp only [List.getD, List.getElem?_eq_getElem ha, Option.getD_some] at this
    simp [this]

omit [AddCommGroup V] in
theorem getD_range_map [Zero V] (n : Nat) (g : Nat → V) (i : Nat) (h : i < n) :
    ((List.range n).map g).getD i 0 = g i := by
  simp [List.getD, h]

end proofs

end NeoFOAM
