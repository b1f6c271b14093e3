import Verif.Base.Rel
import Verif.Model.Expression
import Verif.Spec.Expression

/-!
# Two runs of the same expression over related operators
-/
namespace NeoFOAM
variable {K V W : Type}

/-- A relation between operators that does not look at the coefficient beyond requiring it to be the same. -/
class CoeffStable (P : OpModel K V → OpModel K W → Prop) : Prop where
  coeff {o o'} : P o o' → o'.coeff = o.coeff
  update {o o'} : P o o' → ∀ c, P { o with coeff := c } { o' with coeff := c }

section heap
variable {P : OpModel K V → OpModel K W → Prop}

/-- The same result on related heaps, which stay related. -/
def HM.Rel (P : OpModel K V → OpModel K W → Prop) {α : Type} (X : HM K V α) (Y : HM K W α) : Prop :=
  ∀ s s', List.Forall₂ P s s' → Res.Rel (fun p q => q.1 = p.1 ∧ List.Forall₂ P p.2 q.2) (X s) (Y s')

namespace HM.Rel
variable {α β : Type}

theorem pure (a : α) : HM.Rel P (Pure.pure a : HM K V α) (Pure.pure a : HM K W α) := fun _ _ hs => ⟨rfl, hs⟩

theorem bind {X : HM K V α} {Y : HM K W α} {k : α → HM K V β} {k' : α → HM K W β} (hx : HM.Rel P X Y) (hk : ∀ a, HM.Rel P (k a) (k' a)) :
    HM.Rel P (X >>= k) (Y >>= k') := fun s s' hs =>
  Res.Rel.bind (hx s s' hs) fun p q ⟨h1, h2⟩ => by
    obtain ⟨a, s1⟩ := p; obtain ⟨b, s2⟩ := q
    cases h1
    exact hk _ _ _ h2

theorem foldlM {ι : Type} {f : β → ι → HM K V β} {g : β → ι → HM K W β} (hf : ∀ a i, HM.Rel P (f a i) (g a i)) : ∀ (l : List ι) (a : β),
    HM.Rel P (l.foldlM f a) (l.foldlM g a)
  | [], a => pure a
  | i :: l, a => by
    rw [List.foldlM_cons, List.foldlM_cons]
    exact bind (hf a i) fun b => foldlM hf l b

theorem mapM {ι : Type} {f : ι → HM K V β} {g : ι → HM K W β} (hf : ∀ i, HM.Rel P (f i) (g i)) : ∀ l : List ι, HM.Rel P (l.mapM f) (l.mapM g)
  | [] => pure []
  | i :: l => by
    rw [List.mapM_cons, List.mapM_cons]
    exact bind (hf i) fun b => bind (mapM hf l) fun bs => pure (b :: bs)

end HM.Rel

theorem heap_getElem_rel {s : OpHeap K V} {s' : OpHeap K W} (hs : List.Forall₂ P s s') (i : Nat) :
    Option.Rel P s[i]? s'[i]? := by
  by_cases hi : i < s.length
  · have hi' : i < s'.length := hs.length_eq ▸ hi
    rw [List.getElem?_eq_getElem hi, List.getElem?_eq_getElem hi']
    exact .some (hs.get hi hi')
  · have hi' : ¬ i < s'.length := hs.length_eq ▸ hi
    rw [List.getElem?_eq_none (by omega), List.getElem?_eq_none (by omega)]
    exact .none

theorem clone_rel (i : Nat) : HM.Rel P (HM.clone i : HM K V Nat) (HM.clone i : HM K W Nat) := by
  intro s s' hs
  have := heap_getElem_rel hs i
  show Res.Rel _ ((HM.deref i s).bind fun p => HM.alloc p.1 p.2) ((HM.deref i s').bind fun p => HM.alloc p.1 p.2)
  unfold HM.deref
  generalize s[i]? = x at this
  generalize s'[i]? = y at this
  cases this with
  | none => trivial
  | some ho => exact ⟨hs.length_eq.symm, List.rel_append hs (.cons ho .nil)⟩

theorem updCoeff_rel [CoeffStable P] (i : Nat) (f : Coeff K → Res (Coeff K)) : HM.Rel P (HM.updCoeff i f : HM K V Unit) (HM.updCoeff i f : HM K W Unit) := by
  intro s s' hs
  have := heap_getElem_rel hs i
  unfold HM.updCoeff
  generalize s[i]? = x at this
  generalize s'[i]? = y at this
  cases this with
  | none => trivial
  | @some o o' ho =>
    show Res.Rel _ ((f o.coeff).bind _) ((f o'.coeff).bind _)
    rw [CoeffStable.coeff ho]
    refine Res.Rel.same fun c => ⟨rfl, ?_⟩
    exact forall₂_set (CoeffStable.update ho c) hs i

theorem opUpd_rel [CoeffStable P] (i : Nat) (f : Coeff K → Res (Coeff K)) : HM.Rel P
    (do let rhs ← HM.clone i; let r ← HM.clone rhs; HM.updCoeff r f; return r : HM K V Nat)
    (do let rhs ← HM.clone i; let r ← HM.clone rhs; HM.updCoeff r f; return r : HM K W Nat) :=
  .bind (clone_rel i) fun j => .bind (clone_rel j) fun l => .bind (updCoeff_rel l f) fun _ => .pure l

variable [CoeffStable P] [Mul K]

theorem opScale_rel (r : K) (i : Nat) : HM.Rel P (opScale r i : HM K V Nat) (opScale r i : HM K W Nat) := opUpd_rel i _
theorem opCoeff_rel (c : Coeff K) (i : Nat) : HM.Rel P (opCoeff c i : HM K V Nat) (opCoeff c i : HM K W Nat) := opUpd_rel i _
theorem opField_rel [One K] (f : List K) (i : Nat) : HM.Rel P (opField f i : HM K V Nat) (opField f i : HM K W Nat) := opUpd_rel i _

omit [CoeffStable P] [Mul K] in
theorem copy_rel (e : Expr) : HM.Rel P (e.copy : HM K V Expr) (e.copy : HM K W Expr) :=
  .bind (.mapM clone_rel _) fun t => .bind (.mapM clone_rel _) fun s => .pure (Expr.mk t s)

omit [CoeffStable P] [Mul K] in
theorem addOperator_rel (e : Expr) (k : OpSort) (i : Nat) : HM.Rel P (e.addOperator k i : HM K V Expr) (e.addOperator k i : HM K W Expr) :=
  .bind (clone_rel i) fun _ => .pure _

omit [CoeffStable P] [Mul K] in
theorem addExpression_rel (e r : Expr) : HM.Rel P (e.addExpression r : HM K V Expr) (e.addExpression r : HM K W Expr) :=
  .bind (.foldlM (fun e i => addOperator_rel e _ i) _ _) fun _ => .foldlM (fun e i => addOperator_rel e _ i) _ _

theorem exprScale_rel (r : K) (e : Expr) : HM.Rel P (exprScale r e : HM K V Expr) (exprScale r e : HM K W Expr) :=
  .bind (.foldlM (fun e i => .bind (opScale_rel r i) fun j => addOperator_rel e _ j) _ _) fun _ =>
    .foldlM (fun e i => .bind (opScale_rel r i) fun j => addOperator_rel e _ j) _ _

variable [One K] [Neg K]

omit [Neg K] in
theorem OpT.build_rel : ∀ t : OpT K, HM.Rel P (t.build : HM K V Nat) (t.build : HM K W Nat)
  | .var _ i => .pure i
  | .smul r t => .bind t.build_rel fun i => opScale_rel r i
  | .cmul c t => .bind t.build_rel fun i => opCoeff_rel c i
  | .fmul f t => .bind t.build_rel fun i => opField_rel f i

theorem ExT.build_rel : ∀ t : ExT K, HM.Rel P (t.build : HM K V Expr) (t.build : HM K W Expr)
  | .obj e => .pure e
  | .one a => .bind a.build_rel fun i => addOperator_rel _ _ i
  | .addOO a b => .bind a.build_rel fun i => .bind b.build_rel fun j => .bind (clone_rel i) fun i' => .bind (clone_rel j) fun j' =>
      .bind (addOperator_rel _ _ i') fun e => addOperator_rel e _ j'
  | .subOO a b => .bind a.build_rel fun i => .bind b.build_rel fun j => .bind (clone_rel i) fun i' => .bind (clone_rel j) fun j' =>
      .bind (addOperator_rel _ _ i') fun e => .bind (opCoeff_rel _ j') fun r => addOperator_rel e _ r
  | .addEE x y => .bind x.build_rel fun l => .bind y.build_rel fun r => .bind (copy_rel l) fun l' => addExpression_rel l' r
  | .subEE x y => .bind x.build_rel fun l => .bind y.build_rel fun r => .bind (copy_rel l) fun l' => .bind (exprScale_rel _ r) fun r' => addExpression_rel l' r'
  | .addEO x b _ => .bind x.build_rel fun l => .bind b.build_rel fun i => .bind (copy_rel l) fun l' => addOperator_rel l' _ i
  | .subEO x b _ => .bind x.build_rel fun l => .bind b.build_rel fun i => .bind (copy_rel l) fun l' => .bind (opScale_rel _ i) fun j => addOperator_rel l' _ j
  | .smul r x => .bind x.build_rel fun l => exprScale_rel r l

end heap

/-! ### Operators that keep relations between sources and between systems -/

/-- `o'` keeps `E` between explicit sources and `I` between linear systems when `o` is called at related times. -/
structure OpSim (T : K → K → K → K → Prop) (E : List V → List W → Prop) (I : LinearSystem V → LinearSystem W → Prop) (o : OpModel K V) (o' : OpModel K W) : Prop where
  type : o'.type = o.type
  coeff : o'.coeff = o.coeff
  expl : o.type = .explicit → Option.Rel (fun f f' => ∀ c t dt t' dt' src src', T t dt t' dt' → E src src' → NR.Rel E (f c t dt src) (f' c t' dt' src')) o.expl o'.expl
  impl : o.type = .implicit → Option.Rel (fun f f' => ∀ c t dt t' dt' ls ls', T t dt t' dt' → I ls ls' → NR.Rel I (f c t dt ls) (f' c t' dt' ls')) o.impl o'.impl

variable {T : K → K → K → K → Prop} {E : List V → List W → Prop} {I : LinearSystem V → LinearSystem W → Prop}

instance : CoeffStable (OpSim T E I) where
  coeff h := h.coeff
  update h _ := ⟨h.type, rfl, h.expl, h.impl⟩

theorem derefs_rel {P : OpModel K V → OpModel K W → Prop} {s : OpHeap K V} {s' : OpHeap K W} (hs : List.Forall₂ P s s') (l : List Nat) :
    Res.Rel (List.Forall₂ P) (HM.derefs l s) (HM.derefs l s') := mapM_rel l fun i _ => rd_rel hs i

theorem explOps_sim {t dt t' dt' : K} (ht : T t dt t' dt') {o : List (OpModel K V)} {o' : List (OpModel K W)} (hT : List.Forall₂ (OpSim T E I) o o')
    {src : List V} {src' : List W} (hs : E src src') : NR.Rel E (explOps t dt o src) (explOps t' dt' o' src') := by
  refine NR.Rel.foldlM (fun a b o o' hab ho => ?_) hT hs
  unfold explStep
  rw [ho.type]
  cases hty : o.type
  · exact NR.Rel.pure hab
  · unfold OpModel.runExpl
    rw [ho.coeff]
    have := ho.expl hty
    generalize o.expl = x at this
    generalize o'.expl = y at this
    cases this with
    | none => exact NR.Rel.pure hab
    | some hf => exact hf _ _ _ _ _ _ _ ht hab

theorem implOps_sim {t dt t' dt' : K} (ht : T t dt t' dt') {o : List (OpModel K V)} {o' : List (OpModel K W)} (hT : List.Forall₂ (OpSim T E I) o o')
    {ls : LinearSystem V} {ls' : LinearSystem W} (hl : I ls ls') : NR.Rel I (implOps t dt o ls) (implOps t' dt' o' ls') := by
  refine NR.Rel.foldlM (fun a b o o' hab ho => ?_) hT hl
  unfold implStep
  rw [ho.type]
  cases hty : o.type
  · unfold OpModel.runImpl
    rw [ho.coeff]
    have := ho.impl hty
    generalize o.impl = x at this
    generalize o'.impl = y at this
    cases this with
    | none => exact NR.Rel.pure hab
    | some hf => exact hf _ _ _ _ _ _ _ ht hab
  · exact NR.Rel.pure hab

variable {s : OpHeap K V} {s' : OpHeap K W}

theorem explicit_sim [Zero K] (ht : T 0 0 0 0) (eqn : Expr) (hs : List.Forall₂ (OpSim T E I) s s') {src : List V} {src' : List W} (hr : E src src') :
    NR.Rel E (eqn.explicitOperation s src) (eqn.explicitOperation s' src') :=
  NR.Rel.bind (NR.Rel.lift (derefs_rel hs _)) fun _ _ hT => explOps_sim ht hT hr

theorem explicitT_sim {t dt t' dt' : K} (ht : T t dt t' dt') (eqn : Expr) (hs : List.Forall₂ (OpSim T E I) s s') {src : List V} {src' : List W} (hr : E src src') :
    NR.Rel E (eqn.explicitOperationT s t dt src) (eqn.explicitOperationT s' t' dt' src') :=
  NR.Rel.bind (NR.Rel.lift (derefs_rel hs _)) fun _ _ hT => explOps_sim ht hT hr

theorem implicit_sim [Zero K] (ht : T 0 0 0 0) (eqn : Expr) (hs : List.Forall₂ (OpSim T E I) s s') {ls : LinearSystem V} {ls' : LinearSystem W} (hl : I ls ls') :
    NR.Rel I (eqn.implicitOperation s ls) (eqn.implicitOperation s' ls') :=
  NR.Rel.bind (NR.Rel.lift (derefs_rel hs _)) fun _ _ hT => implOps_sim ht hT hl

theorem implicitT_sim {t dt t' dt' : K} (ht : T t dt t' dt') (eqn : Expr) (hs : List.Forall₂ (OpSim T E I) s s') {ls : LinearSystem V} {ls' : LinearSystem W}
    (hl : I ls ls') : NR.Rel I (eqn.implicitOperationT s t dt ls) (eqn.implicitOperationT s' t' dt' ls') :=
  NR.Rel.bind (NR.Rel.lift (derefs_rel hs _)) fun _ _ hT => implOps_sim ht hT hl

end NeoFOAM
