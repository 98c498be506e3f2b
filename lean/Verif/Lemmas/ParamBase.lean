import Verif.SpecParam

/-!
# Two runs of the same program: functions on data
-/

namespace RL

open Spec

section outcome

variable {α α' β β' : Type} {P : α → α' → Prop} {Q : β → β' → Prop}

theorem Spec.SameOutcome.refl {α : Type} (x : R α) : SameOutcome (fun a b => a = b) x x := by cases x <;> rfl

theorem Spec.SameOutcome.ok {a : α} {b : α'} (h : P a b) : SameOutcome P (.ok a) (.ok b) := h

theorem Spec.SameOutcome.pure {a : α} {b : α'} (h : P a b) : SameOutcome P (pure a : R α) (pure b : R α') := h

theorem Spec.SameOutcome.error (e : Fail) : SameOutcome P (.error e) (.error e) := rfl

theorem Spec.SameOutcome.bind {x : R α} {y : R α'} {f : α → R β} {g : α' → R β'} (h : SameOutcome P x y)
    (hf : ∀ a b, P a b → SameOutcome Q (f a) (g b)) : SameOutcome Q (x >>= f) (y >>= g) := by
  cases x <;> cases y <;> first | exact h.elim | (cases h; rfl) | exact hf _ _ h

theorem Spec.SameOutcome.same {α : Type} {β β' : Type} {Q : β → β' → Prop} (x : R α) {f : α → R β} {g : α → R β'} (hf : ∀ a, SameOutcome Q (f a) (g a)) :
    SameOutcome Q (x >>= f) (x >>= g) := by
  cases x with
  | error e => exact rfl
  | ok a => exact hf a

theorem Spec.SameOutcome.mono {P' : α → α' → Prop} {x : R α} {y : R α'} (h : SameOutcome P x y) (hp : ∀ a b, P a b → P' a b) :
    SameOutcome P' x y := by
  cases x <;> cases y <;> first | exact h.elim | exact h | exact hp _ _ h

theorem Spec.SameOutcome.ite {c c' : Prop} [Decidable c] [Decidable c'] {x x' : R α} {y y' : R α'} (hc : c ↔ c') (h1 : c → SameOutcome P x y)
    (h2 : ¬ c → SameOutcome P x' y') : SameOutcome P (if c then x else x') (if c' then y else y') := by
  by_cases h : c
  · rw [if_pos h, if_pos (hc.1 h)]; exact h1 h
  · rw [if_neg h, if_neg fun h' => h (hc.2 h')]; exact h2 h

theorem Spec.SameOutcome.unwrap {x : R α} {y : R α'} (h : SameOutcome P x y) : SameOutcome P (unwrapR x) (unwrapR y) := by
  rcases x with e | a <;> rcases y with f | b
  · cases h; cases e <;> rfl
  · exact h.elim
  · exact h.elim
  · exact h

theorem Spec.SameOutcome.idx {l : List α} {l' : List α'} (h : List.Forall₂ P l l') (i : Nat) : SameOutcome P (idxR l i) (idxR l' i) := by
  induction h generalizing i with
  | nil => exact rfl
  | cons h _ ih =>
    cases i with
    | zero => exact h
    | succ i => exact ih i

theorem Spec.SameOutcome.foldlM {l : List α} {l' : List α'} {f : β → α → R β} {g : β' → α' → R β'} (h : List.Forall₂ P l l')
    (hf : ∀ s s' a b, Q s s' → P a b → SameOutcome Q (f s a) (g s' b)) {s : β} {s' : β'} (hs : Q s s') :
    SameOutcome Q (l.foldlM f s) (l'.foldlM g s') := by
  induction h generalizing s s' with
  | nil => exact hs
  | cons h _ ih =>
    rw [List.foldlM_cons, List.foldlM_cons]
    exact (hf _ _ _ _ hs h).bind fun _ _ h => ih h

theorem forall₂_eq {α : Type} (l : List α) : List.Forall₂ (fun a b => a = b) l l := by
  induction l with
  | nil => exact .nil
  | cons a l ih => exact .cons rfl ih

theorem Spec.SameOutcome.foldlM_same {α : Type} {β β' : Type} {Q : β → β' → Prop} (l : List α) {f : β → α → R β} {g : β' → α → R β'}
    (hf : ∀ s s' a, Q s s' → SameOutcome Q (f s a) (g s' a)) {s : β} {s' : β'} (hs : Q s s') :
    SameOutcome Q (l.foldlM f s) (l.foldlM g s') :=
  SameOutcome.foldlM (forall₂_eq l) (fun s s' a b h e => by cases e; exact hf s s' a h) hs

theorem Spec.SameOutcome.mapM {l : List α} {l' : List α'} {f : α → R β} {g : α' → R β'} (h : List.Forall₂ P l l')
    (hf : ∀ a b, P a b → SameOutcome Q (f a) (g b)) : SameOutcome (List.Forall₂ Q) (l.mapM f) (l'.mapM g) := by
  induction h with
  | nil => exact .nil
  | cons h _ ih =>
    rw [List.mapM_cons, List.mapM_cons]
    exact (hf _ _ h).bind fun _ _ h1 => ih.bind fun _ _ h2 => .cons h1 h2

theorem Spec.SameOutcome.iterLoop {f : β → List Nat → R β} {g : β' → List Nat → R β'}
    (hf : ∀ s s' idx, Q s s' → SameOutcome Q (f s idx) (g s' idx)) (n : Nat) (it : IndexIter) {s : β} {s' : β'} (hs : Q s s') :
    SameOutcome Q (iterLoop f n it s) (iterLoop g n it s') := by
  induction n generalizing it s s' with
  | zero => exact rfl
  | succ n ih =>
    rw [RL.iterLoop, RL.iterLoop]
    cases it.next with
    | error e => exact rfl
    | ok x =>
      obtain ⟨o, it⟩ := x
      cases o with
      | none => exact hs
      | some idx => exact (hf _ _ idx hs).bind fun _ _ h => ih it h

theorem Spec.SameOutcome.forIndices (dims : List Nat) {f : β → List Nat → R β} {g : β' → List Nat → R β'}
    (hf : ∀ s s' idx, Q s s' → SameOutcome Q (f s idx) (g s' idx)) {s : β} {s' : β'} (hs : Q s s') :
    SameOutcome Q (forIndices dims s f) (forIndices dims s' g) := SameOutcome.iterLoop hf _ _ hs

end outcome

section data

variable {T S : Type} {rel : T → S → Prop}

theorem forall₂_append {α β : Type _} {P : α → β → Prop} {l m : List α} {l' m' : List β} (h1 : List.Forall₂ P l l') (h2 : List.Forall₂ P m m') :
    List.Forall₂ P (l ++ m) (l' ++ m') := by
  induction h1 with
  | nil => exact h2
  | cons h _ ih => exact .cons h ih

theorem forall₂_length {α β : Type _} {P : α → β → Prop} {l : List α} {l' : List β} (h : List.Forall₂ P l l') : l.length = l'.length := by
  induction h with
  | nil => rfl
  | cons _ _ ih => simp [ih]

theorem forall₂_replicate {α β : Type _} {P : α → β → Prop} {a : α} {b : β} (h : P a b) (n : Nat) :
    List.Forall₂ P (List.replicate n a) (List.replicate n b) := by
  induction n with
  | zero => exact .nil
  | succ n ih => exact .cons h ih

theorem forall₂_set {α β : Type _} {P : α → β → Prop} {l : List α} {l' : List β} (h : List.Forall₂ P l l') {a : α} {b : β} (hab : P a b) (i : Nat) :
    List.Forall₂ P (l.set i a) (l'.set i b) := by
  induction h generalizing i with
  | nil => exact .nil
  | cons h ht ih =>
    cases i with
    | zero => exact .cons hab ht
    | succ i => exact .cons h (ih i)

theorem forall₂_map {α β γ δ : Type _} {P : α → β → Prop} {Q : γ → δ → Prop} {l : List α} {l' : List β} {f : α → γ} {g : β → δ}
    (h : List.Forall₂ P l l') (hf : ∀ a b, P a b → Q (f a) (g b)) : List.Forall₂ Q (l.map f) (l'.map g) := by
  induction h with
  | nil => exact .nil
  | cons h _ ih => exact .cons (hf _ _ h) ih

theorem forall₂_flatten {α β : Type _} {P : α → β → Prop} {l : List (List α)} {l' : List (List β)} (h : List.Forall₂ (List.Forall₂ P) l l') :
    List.Forall₂ P l.flatten l'.flatten := by
  induction h with
  | nil => exact .nil
  | cons h _ ih => rw [List.flatten_cons, List.flatten_cons]; exact forall₂_append h ih

theorem forall₂_foldl {α β γ δ : Type _} {P : α → β → Prop} {Q : γ → δ → Prop} {l : List α} {l' : List β} {f : γ → α → γ} {g : δ → β → δ}
    (h : List.Forall₂ P l l') (hf : ∀ s s' a b, Q s s' → P a b → Q (f s a) (g s' b)) {s : γ} {s' : δ} (hs : Q s s') :
    Q (l.foldl f s) (l'.foldl g s') := by
  induction h generalizing s s' with
  | nil => exact hs
  | cons h _ ih => exact ih (hf _ _ _ _ hs h)

/-- `RawRel` for views. -/
def ViewRel (rel : T → S → Prop) (v : View T) (w : View S) : Prop := RawRel rel v.tensor w.tensor ∧ v.shape = w.shape ∧ v.offset = w.offset

/-- `RawRel` for `TensorLike`. -/
inductive TLRel (rel : T → S → Prop) : TL T → TL S → Prop where
  | raw {a : Raw T} {b : Raw S} (h : RawRel rel a b) : TLRel rel (.raw a) (.raw b)
  | view {a : View T} {b : View S} (h : ViewRel rel a b) : TLRel rel (.view a) (.view b)

theorem Raw.new_rel {a : List T} {b : List S} (h : List.Forall₂ rel a b) (shape : List Nat) :
    SameOutcome (RawRel rel) (Raw.new a shape) (Raw.new b shape) := by
  rw [Raw.new, Raw.new, forall₂_length h]
  exact SameOutcome.same _ fun _ => ⟨h, rfl⟩

theorem Raw.newWithFiller_rel (shape : List Nat) {x : T} {y : S} (h : rel x y) :
    RawRel rel (Raw.newWithFiller shape x) (Raw.newWithFiller shape y) := by
  rw [Raw.newWithFiller, Raw.newWithFiller]
  split
  · exact ⟨.cons h .nil, rfl⟩
  · exact ⟨forall₂_replicate h _, rfl⟩

theorem Raw.scalar_rel {x : T} {y : S} (h : rel x y) : RawRel rel (Raw.scalar x) (Raw.scalar y) := ⟨.cons h .nil, rfl⟩

theorem Raw.get_rel {a : Raw T} {b : Raw S} (h : RawRel rel a b) (idx : List Nat) : SameOutcome rel (a.get idx) (b.get idx) := by
  rw [Raw.get, Raw.get, h.2]
  exact SameOutcome.same _ fun i => SameOutcome.idx h.1 i

theorem Raw.at_rel {a : Raw T} {b : Raw S} (h : RawRel rel a b) (idx : List Nat) : SameOutcome rel (a.at idx) (b.at idx) := (Raw.get_rel h idx).unwrap

theorem Raw.set_rel {a : Raw T} {b : Raw S} (h : RawRel rel a b) (idx : List Nat) {x : T} {y : S} (hxy : rel x y) :
    SameOutcome (RawRel rel) (a.set idx x) (b.set idx y) := by
  rw [Raw.set, Raw.set, h.2]
  refine SameOutcome.same _ fun i => SameOutcome.ite (by rw [forall₂_length h.1]) (fun _ => ⟨forall₂_set h.1 hxy _, rfl⟩) (fun _ => rfl)

theorem View.new_rel {a : Raw T} {b : Raw S} (h : RawRel rel a b) (offset : List SliceRange) :
    SameOutcome (ViewRel rel) (View.new a offset) (View.new b offset) := by
  rw [View.new, View.new, h.2]
  exact SameOutcome.same _ fun _ => SameOutcome.same _ fun _ => ⟨h, rfl, rfl⟩

theorem View.reshape_rel {v : View T} {w : View S} (h : ViewRel rel v w) (shape : List Nat) :
    SameOutcome (ViewRel rel) (v.reshape shape) (w.reshape shape) := by
  rw [View.reshape, View.reshape, h.2.1]
  exact SameOutcome.same _ fun _ => ⟨h.1, rfl, h.2.2⟩

theorem View.slice_rel {v : View T} {w : View S} (h : ViewRel rel v w) (offset : List SliceRange) :
    SameOutcome (ViewRel rel) (v.slice offset) (w.slice offset) := View.new_rel h.1 offset

theorem View.get_rel {v : View T} {w : View S} (h : ViewRel rel v w) (idx : List Nat) : SameOutcome rel (v.get idx) (w.get idx) := by
  rw [View.get, View.get, h.1.2, h.2.2]
  exact SameOutcome.same _ fun i => SameOutcome.idx h.1.1 i

theorem TLRel.shape {x : TL T} {y : TL S} (h : TLRel rel x y) : x.shape = y.shape := by
  cases h with
  | raw h => exact h.2
  | view h => exact h.2.1

theorem TLRel.get {x : TL T} {y : TL S} (h : TLRel rel x y) (idx : List Nat) : SameOutcome rel (x.get idx) (y.get idx) := by
  cases h with
  | raw h => exact Raw.get_rel h idx
  | view h => exact View.get_rel h idx

theorem TLRel.tensor {x : TL T} {y : TL S} (h : TLRel rel x y) : RawRel rel x.tensor y.tensor := by
  cases h with
  | raw h => exact h
  | view h => exact h.1

theorem TLRel.forElems {σ τ : Type} {P : σ → τ → Prop} {x : TL T} {y : TL S} (h : TLRel rel x y) {f : σ → T → R σ} {g : τ → S → R τ}
    (hf : ∀ s s' a b, P s s' → rel a b → SameOutcome P (f s a) (g s' b)) {s : σ} {s' : τ} (hs : P s s') :
    SameOutcome P (forElems x s f) (forElems y s' g) := by
  rw [RL.forElems, RL.forElems, h.shape]
  exact SameOutcome.forIndices _ (fun s s' idx hs => (h.get idx).unwrap.bind fun a b hab => hf _ _ _ _ hs hab) hs

theorem TLRel.toTensor {x : TL T} {y : TL S} (h : TLRel rel x y) : SameOutcome (RawRel rel) x.toTensor y.toTensor := by
  cases h with
  | raw h => exact h
  | view h =>
    rw [TL.toTensor, TL.toTensor, h.2.1]
    exact ((TLRel.view h).forElems (P := List.Forall₂ rel) (fun s s' a b hs hab => SameOutcome.pure (forall₂_append hs (.cons hab .nil))) .nil).bind
      fun _ _ h1 => Raw.new_rel h1 _

theorem TLRel.count {x : TL T} {y : TL S} (h : TLRel rel x y) : x.count = y.count := by
  cases h with
  | raw h => exact forall₂_length h.1
  | view h => exact congrArg List.prod h.2.1

theorem TLRel.sum [Zero T] [Add T] [Zero S] [Add S] (h0 : rel 0 0) (ha : ∀ {a b x y}, rel a x → rel b y → rel (a + b) (x + y))
    {x : TL T} {y : TL S} (h : TLRel rel x y) : SameOutcome (RawRel rel) x.sum y.sum := by
  cases h with
  | raw h => exact Raw.scalar_rel (forall₂_foldl h.1 (fun _ _ _ _ => ha) h0)
  | view h =>
    rw [TL.sum, TL.sum]
    exact ((TLRel.view h).forElems (P := rel) (fun s s' a b hs hab => SameOutcome.pure (ha hs hab)) h0).bind fun _ _ h1 => Raw.scalar_rel h1

theorem TLRel.slice {x : TL T} {y : TL S} (h : TLRel rel x y) (offset : List SliceRange) :
    SameOutcome (ViewRel rel) (x.slice offset) (y.slice offset) := by
  cases h with
  | raw h => exact View.new_rel h offset
  | view h => exact View.slice_rel h offset

theorem TLRel.getFirstElem {x : TL T} {y : TL S} (h : TLRel rel x y) : SameOutcome rel x.getFirstElem y.getFirstElem := by
  rw [TL.getFirstElem, TL.getFirstElem, h.shape]
  exact (h.get _).unwrap

theorem TLRel.leftScalarMul [Mul T] [Mul S] (hm : ∀ {a b x y}, rel a x → rel b y → rel (a * b) (x * y)) {x : TL T} {y : TL S} (h : TLRel rel x y)
    {a : T} {b : S} (hab : rel a b) : RawRel rel (x.leftScalarMul a) (y.leftScalarMul b) :=
  ⟨forall₂_map h.tensor.1 fun _ _ h1 => hm hab h1, h.shape⟩

theorem TLRel.rightScalarMul [Mul T] [Mul S] (hm : ∀ {a b x y}, rel a x → rel b y → rel (a * b) (x * y)) {x : TL T} {y : TL S} (h : TLRel rel x y)
    {a : T} {b : S} (hab : rel a b) : RawRel rel (x.rightScalarMul a) (y.rightScalarMul b) :=
  ⟨forall₂_map h.tensor.1 fun _ _ h1 => hm h1 hab, h.shape⟩

theorem genericBinopRaw_rel [Zero T] [Zero S] (h0 : rel 0 0) {x x' : TL T} {y y' : TL S} (h : TLRel rel x y) (h' : TLRel rel x' y')
    {f : T → T → T} {g : S → S → S} (hf : ∀ {a b c d}, rel a c → rel b d → rel (f a b) (g c d)) :
    SameOutcome (RawRel rel) (genericBinopRaw x x' f) (genericBinopRaw y y' g) := by
  rw [genericBinopRaw, genericBinopRaw, TL.broadcastable, TL.broadcastable, h.shape, h'.shape]
  refine SameOutcome.same _ fun _ => SameOutcome.forIndices _ (fun s s' idx hs => ?_) (Raw.newWithFiller_rel _ h0)
  exact (h.get idx).unwrap.bind fun _ _ h1 => (h'.get idx).unwrap.bind fun _ _ h2 => (Raw.set_rel hs idx (hf h1 h2)).unwrap

theorem genericUnaryOp_rel {rel' : T → S → Prop} {x : TL T} {y : TL S} (h : TLRel rel' x y) {f : T → T} {g : S → S}
    (hf : ∀ a b, rel' a b → rel (f a) (g b)) :
    SameOutcome (RawRel rel) (genericUnaryOp x f) (genericUnaryOp y g) := by
  rw [genericUnaryOp, genericUnaryOp, h.shape]
  refine h.toTensor.bind fun a b hab => ?_
  simp only [(TLRel.raw hab).count, hab.2]
  refine (SameOutcome.foldlM_same (Q := fun p q => List.Forall₂ rel p.1 q.1 ∧ p.2 = q.2) _ ?_ ⟨.nil, rfl⟩).bind ?_
  · rintro ⟨s, i⟩ ⟨s', i'⟩ n ⟨h1, h2⟩
    cases h2
    exact (h.get i).unwrap.bind fun _ _ h2 => SameOutcome.same _ fun _ => ⟨forall₂_append h1 (.cons (hf _ _ h2) .nil), rfl⟩
  · rintro ⟨s, i⟩ ⟨s', i'⟩ ⟨h1, h2⟩
    exact Raw.new_rel h1 _

theorem elementWiseMul_rel [Mul T] [Mul S] (hm : ∀ {a b x y}, rel a x → rel b y → rel (a * b) (x * y)) {x x' : TL T} {y y' : TL S}
    (h : TLRel rel x y) (h' : TLRel rel x' y') : SameOutcome (RawRel rel) (elementWiseMul x x') (elementWiseMul y y') := by
  rw [elementWiseMul, elementWiseMul, TL.sameShape, TL.sameShape, h.shape, h'.shape]
  refine SameOutcome.same _ fun _ => (SameOutcome.forIndices (Q := List.Forall₂ rel) _ (fun s s' idx hs => ?_) .nil).bind fun _ _ h1 => Raw.new_rel h1 _
  exact (h.get idx).unwrap.bind fun _ _ h1 => (h'.get idx).unwrap.bind fun _ _ h2 => forall₂_append hs (.cons (hm h1 h2) .nil)

theorem mulRaw_rel [Mul T] [Mul S] (hm : ∀ {a b x y}, rel a x → rel b y → rel (a * b) (x * y)) {x : Raw T} {x' : TL T} {y : Raw S} {y' : TL S}
    (h : RawRel rel x y) (h' : TLRel rel x' y') : SameOutcome (RawRel rel) (mulRaw x x') (mulRaw y y') := by
  rw [mulRaw, mulRaw, h.2, h'.shape]
  refine SameOutcome.ite Iff.rfl (fun _ => ?_) fun _ => SameOutcome.ite Iff.rfl (fun _ => ?_) fun _ => elementWiseMul_rel hm (.raw h) h'
  · exact (SameOutcome.idx h.1 0).bind fun _ _ h1 => h'.leftScalarMul hm h1
  · exact h'.getFirstElem.bind fun _ _ h1 => (TLRel.raw h).rightScalarMul hm h1

section sums

variable [Zero T] [Add T] [Mul T] [Zero S] [Add S] [Mul S] (h0 : rel 0 0) (ha : ∀ {a b x y}, rel a x → rel b y → rel (a + b) (x + y))
  (hm : ∀ {a b x y}, rel a x → rel b y → rel (a * b) (x * y))

include h0 ha hm

theorem dotRaw_rel {x x' : TL T} {y y' : TL S} (h : TLRel rel x y) (h' : TLRel rel x' y') :
    SameOutcome (RawRel rel) (dotRaw x x') (dotRaw y y') := by
  rw [dotRaw, dotRaw, TL.sameShape, TL.sameShape, h.shape, h'.shape, forall₂_length h.tensor.1]
  refine SameOutcome.same _ fun _ => (SameOutcome.foldlM_same (Q := rel) _ (fun s s' i hs => ?_) h0).bind fun _ _ h1 => ⟨.cons h1 .nil, rfl⟩
  exact (SameOutcome.idx h.tensor.1 i).bind fun _ _ h1 => (SameOutcome.idx h'.tensor.1 i).bind fun _ _ h2 => ha hs (hm h1 h2)

theorem bmmEntry_rel {x x' : TL T} {y y' : TL S} (h : TLRel rel x y) (h' : TLRel rel x' y') (li ri : List Nat) (rows j : Nat) :
    SameOutcome rel (bmmEntry x x' li ri rows j) (bmmEntry y y' li ri rows j) := by
  rw [bmmEntry, bmmEntry]
  refine SameOutcome.foldlM_same _ (fun s s' i hs => ?_) h0
  exact (h.get _).unwrap.bind fun _ _ h1 => (h'.get _).unwrap.bind fun _ _ h2 => ha hs (hm h1 h2)

theorem bmmRaw_rel {x x' : TL T} {y y' : TL S} (h : TLRel rel x y) (h' : TLRel rel x' y') :
    SameOutcome (RawRel rel) (bmmRaw x x') (bmmRaw y y') := by
  have e1 : bmmChecks x x' = bmmChecks y y' := by rw [bmmChecks, bmmChecks, h.shape, h'.shape]
  have e2 : bmmShape x x' = bmmShape y y' := by rw [bmmShape, bmmShape, h.shape, h'.shape]
  have e3 : ∀ b i, bmmLeftIndex x b i = bmmLeftIndex y b i := fun b i => by rw [bmmLeftIndex, bmmLeftIndex, h.shape]
  rw [bmmRaw, bmmRaw, e1, e2]
  simp only [e3, h.shape, h'.shape]
  refine SameOutcome.same _ fun _ => SameOutcome.same _ fun ns => SameOutcome.same _ fun nb => SameOutcome.same _ fun nrow =>
    SameOutcome.same _ fun ncol => SameOutcome.same _ fun rows => ?_
  refine (SameOutcome.foldlM_same (Q := List.Forall₂ rel) _ (fun s s' i hs => SameOutcome.foldlM_same _ (fun s s' i hs => ?_) hs) .nil).bind ?_
  · refine (SameOutcome.mapM (forall₂_eq _) fun a b e => ?_).bind fun _ _ h1 => forall₂_append hs h1
    cases e
    exact bmmEntry_rel h0 ha hm h h' _ _ _ _
  · intro a b hab
    exact SameOutcome.ite Iff.rfl (fun _ => ⟨hab, rfl⟩) fun _ => ⟨hab, rfl⟩

end sums

end data

end RL
