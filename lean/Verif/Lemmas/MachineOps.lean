import Verif.Model.MachineOps
import Verif.Lemmas.Machine

/-!
# Success in the debug profile carries over to the release profile and to unbounded numbers
-/

namespace RL

open Spec

/-- The panics that only the debug profile has. -/
def Fail.DebugOnly (e : Fail) : Prop := e = .panic .overflow ∨ e = .panic .debugAssert

/-- Also the artificial panic of the model at the end of its fuel, as the fuel differs between the profiles. -/
def Fail.DebugFuel (e : Fail) : Prop := e.DebugOnly ∨ e = .panic .diverge

/-- The second computation has the outcome of the first unless the first fails in a way in `S`. -/
structure Into (S : Fail → Prop) {α : Type _} (x y : R α) : Prop where
  ok : ∀ a, x = .ok a → y = .ok a
  err : ∀ e, x = .error e → S e ∨ y = .error e

section

variable {α β : Type _} {S : Fail → Prop}

theorem Into.rfl' (x : R α) : Into S x x := ⟨fun _ h => h, fun _ h => .inr h⟩

theorem Into.error {e : Fail} (h : S e) (y : R α) : Into S (.error e) y :=
  ⟨fun _ h => (by cases h), fun _ h' => by cases h'; exact .inl h⟩

theorem Into.bind {x y : R α} {f g : α → R β} (h : Into S x y) (hf : ∀ a, Into S (f a) (g a)) : Into S (x >>= f) (y >>= g) := by
  cases hx : x with
  | ok a => rw [h.ok a hx]; exact hf a
  | error e =>
    rcases h.err e hx with h1 | h1
    · exact Into.error h1 _
    · rw [h1]; exact Into.rfl' _

theorem Into.unwrapR (hS : ∀ e, ¬ S (.err e)) {x y : R α} (h : Into S x y) : Into S (unwrapR x) (unwrapR y) := by
  cases hx : x with
  | ok a => rw [h.ok a hx]; exact Into.rfl' _
  | error e =>
    rcases h.err e hx with h1 | h1
    · cases e with
      | err e => exact absurd h1 (hS e)
      | panic p => exact Into.error h1 _
    · rw [h1]; exact Into.rfl' _

theorem Into.foldlM {γ : Type _} {f g : β → γ → R β} (h : ∀ s a, Into S (f s a) (g s a)) (l : List γ) (s : β) :
    Into S (l.foldlM f s) (l.foldlM g s) := by
  induction l generalizing s with
  | nil => exact Into.rfl' _
  | cons a l ih =>
    rw [List.foldlM_cons, List.foldlM_cons]
    exact (h s a).bind fun b => ih b

theorem Into.mapM {f g : α → R β} (h : ∀ a, Into S (f a) (g a)) (l : List α) : Into S (l.mapM f) (l.mapM g) := by
  induction l with
  | nil => exact Into.rfl' _
  | cons a l ih =>
    rw [List.mapM_cons, List.mapM_cons]
    exact (h a).bind fun b => ih.bind fun c => Into.rfl' _

end

theorem not_debugOnly (e : IdxErr) : ¬ Fail.DebugOnly (.err e) := by rintro (h | h) <;> cases h

theorem not_debugFuel (e : IdxErr) : ¬ Fail.DebugFuel (.err e) := by rintro ((h | h) | h) <;> cases h

theorem debugFuel_overflow : Fail.DebugFuel (.panic .overflow) := .inl (.inl rfl)

theorem debugFuel_assert : Fail.DebugFuel (.panic .debugAssert) := .inl (.inr rfl)

/-- One step of `into`; every lemma about a function adds a rule. -/
syntax "into_step" : tactic
macro_rules | `(tactic| into_step) => `(tactic| exact Into.rfl' _)
macro_rules | `(tactic| into_step) => `(tactic| with_reducible apply Into.unwrapR not_debugFuel)
macro_rules | `(tactic| into_step) => `(tactic| with_reducible apply Into.bind)
macro_rules | `(tactic| into_step) => `(tactic| with_reducible apply Into.foldlM)
macro_rules | `(tactic| into_step) => `(tactic| with_reducible apply Into.mapM)
macro_rules | `(tactic| into_step) => `(tactic| intro _)
macro_rules | `(tactic| into_step) => `(tactic| assumption)

/-- Goals about the same program text on both sides. -/
macro "into" : tactic => `(tactic| repeat' into_step)

/-! ## To the release profile -/

theorem wrapU_into (p : Profile) (x : Nat) : Into Fail.DebugFuel (wrapU .debug x) (wrapU p x) := by
  unfold wrapU
  split
  · exact Into.rfl' _
  · exact Into.error debugFuel_overflow _

theorem mulU_into (p : Profile) (a b : Nat) : Into Fail.DebugFuel (mulU .debug a b) (mulU p a b) := wrapU_into _ _
macro_rules | `(tactic| into_step) => `(tactic| with_reducible apply mulU_into)

theorem addU_into (p : Profile) (a b : Nat) : Into Fail.DebugFuel (addU .debug a b) (addU p a b) := wrapU_into _ _
macro_rules | `(tactic| into_step) => `(tactic| with_reducible apply addU_into)

theorem subU_into (p : Profile) (a b : Nat) : Into Fail.DebugFuel (subU .debug a b) (subU p a b) := by
  unfold subU
  split
  · exact Into.rfl' _
  · exact Into.error debugFuel_overflow _
macro_rules | `(tactic| into_step) => `(tactic| with_reducible apply subU_into)

theorem debugAssertR_into (p : Profile) (c : Bool) : Into Fail.DebugFuel (debugAssertR .debug c) (debugAssertR p c) := by
  cases p
  · exact Into.rfl' _
  · cases c
    · exact Into.error debugFuel_assert _
    · exact Into.rfl' _
macro_rules | `(tactic| into_step) => `(tactic| with_reducible apply debugAssertR_into)

theorem prodU_into (p : Profile) (l : List Nat) : Into Fail.DebugFuel (prodU .debug l) (prodU p l) := Into.foldlM (mulU_into p) _ _
macro_rules | `(tactic| into_step) => `(tactic| with_reducible apply prodU_into)

variable {T : Type}

theorem newU_into (p : Profile) (array : List T) (shape : List Nat) : Into Fail.DebugFuel (Raw.newU .debug array shape) (Raw.newU p array shape) := by
  unfold Raw.newU; into
macro_rules | `(tactic| into_step) => `(tactic| with_reducible apply newU_into)

theorem newWithFillerU_into (p : Profile) (shape : List Nat) (v : T) :
    Into Fail.DebugFuel (Raw.newWithFillerU .debug shape v) (Raw.newWithFillerU p shape v) := by
  unfold Raw.newWithFillerU; split <;> into
macro_rules | `(tactic| into_step) => `(tactic| with_reducible apply newWithFillerU_into)

theorem incrementLoopU_into (p : Profile) (index shape : List Nat) (i : Nat) :
    Into Fail.DebugFuel (incrementLoopU .debug index shape i) (incrementLoopU p index shape i) := by
  induction i with
  | zero => exact Into.rfl' _
  | succ i ih =>
    unfold incrementLoopU
    into
    split <;> into

theorem incrementIndexU_into (p : Profile) (index shape : List Nat) :
    Into Fail.DebugFuel (incrementIndexU .debug index shape) (incrementIndexU p index shape) := incrementLoopU_into _ _ _ _
macro_rules | `(tactic| into_step) => `(tactic| with_reducible apply incrementIndexU_into)

theorem globalIndexLoopU_into (p : Profile) (n : Nat) (offset : Option (List SliceRange)) (l : List (Nat × Nat)) (k g m : Nat) :
    Into Fail.DebugFuel (globalIndexLoopU .debug n offset l k g m) (globalIndexLoopU p n offset l k g m) := by
  induction l generalizing k g m with
  | nil => exact Into.rfl' _
  | cons x l ih =>
    obtain ⟨dim, idx⟩ := x
    unfold globalIndexLoopU
    into
    split
    · exact ih _ _ _
    · cases offset <;> into <;> (dsimp only; split) <;> into <;> split <;> into <;> exact ih _ _ _

theorem globalIndexU_into (p : Profile) (index shape : List Nat) (offset : Option (List SliceRange)) :
    Into Fail.DebugFuel (globalIndexU .debug index shape offset) (globalIndexU p index shape offset) := by
  unfold globalIndexU
  split
  · into
  · exact globalIndexLoopU_into _ _ _ _ _ _ _
macro_rules | `(tactic| into_step) => `(tactic| with_reducible apply globalIndexU_into)

theorem IndexIter.nextU_into (p : Profile) (it : IndexIter) : Into Fail.DebugFuel (it.nextU .debug) (it.nextU p) := by
  unfold IndexIter.nextU
  split <;> into

theorem iterLoopU_into (p : Profile) {σ : Type _} {f g : σ → List Nat → R σ} (h : ∀ s i, Into Fail.DebugFuel (f s i) (g s i)) :
    ∀ (n m : Nat) (it : IndexIter) (s : σ), n ≤ m → Into Fail.DebugFuel (iterLoopU .debug f n it s) (iterLoopU p g m it s) := by
  intro n
  induction n with
  | zero => intro m it s _; exact Into.error (.inr rfl) _
  | succ n ih =>
    intro m it s hm
    obtain ⟨m, rfl⟩ : ∃ k, m = k + 1 := ⟨m - 1, by omega⟩
    unfold iterLoopU
    refine (IndexIter.nextU_into p it).bind fun x => ?_
    dsimp only
    cases x.1 with
    | none => exact Into.rfl' _
    | some idx => exact (h s idx).bind fun s' => ih m _ _ (by omega)

theorem iterFuelU_le (p : Profile) (dims : List Nat) : iterFuelU .debug dims ≤ iterFuelU p dims := by
  cases p with
  | debug => exact le_refl _
  | release =>
    show iterFuel dims ≤ _
    unfold iterFuel iterFuelU
    refine Nat.add_le_add_right ?_ 2
    induction dims with
    | nil => exact le_refl _
    | cons d dims ih =>
      simp only [List.map_cons, List.prod_cons]
      refine Nat.mul_le_mul ?_ ih
      split
      · next h => subst h; decide
      · omega

theorem forIndicesU_into (p : Profile) {σ : Type _} (dims : List Nat) (s : σ) {f g : σ → List Nat → R σ} (h : ∀ s i, Into Fail.DebugFuel (f s i) (g s i)) :
    Into Fail.DebugFuel (forIndicesU .debug dims s f) (forIndicesU p dims s g) := iterLoopU_into p h _ _ _ _ (iterFuelU_le p dims)
macro_rules | `(tactic| into_step) => `(tactic| with_reducible apply forIndicesU_into)

theorem Raw.getU_into (p : Profile) (t : Raw T) (index : List Nat) : Into Fail.DebugFuel (t.getU .debug index) (t.getU p index) := by
  unfold Raw.getU; into
macro_rules | `(tactic| into_step) => `(tactic| with_reducible apply Raw.getU_into)

theorem Raw.setU_into (p : Profile) (t : Raw T) (index : List Nat) (v : T) : Into Fail.DebugFuel (t.setU .debug index v) (t.setU p index v) := by
  unfold Raw.setU; into
macro_rules | `(tactic| into_step) => `(tactic| with_reducible apply Raw.setU_into)

theorem Raw.atU_into (p : Profile) (t : Raw T) (index : List Nat) : Into Fail.DebugFuel (t.atU .debug index) (t.atU p index) := by
  unfold Raw.atU; into
macro_rules | `(tactic| into_step) => `(tactic| with_reducible apply Raw.atU_into)

theorem viewShapeU_into (p : Profile) (l : List (SliceRange × Nat)) : Into Fail.DebugFuel (viewShapeU .debug l) (viewShapeU p l) := by
  induction l with
  | nil => exact Into.rfl' _
  | cons x l ih => unfold viewShapeU; into
macro_rules | `(tactic| into_step) => `(tactic| with_reducible apply viewShapeU_into)

theorem View.newU_into (p : Profile) (t : Raw T) (o : List SliceRange) : Into Fail.DebugFuel (View.newU .debug t o) (View.newU p t o) := by
  unfold View.newU; into
macro_rules | `(tactic| into_step) => `(tactic| with_reducible apply View.newU_into)

theorem View.sliceU_into (p : Profile) (v : View T) (o : List SliceRange) : Into Fail.DebugFuel (v.sliceU .debug o) (v.sliceU p o) := by
  unfold View.sliceU; into
macro_rules | `(tactic| into_step) => `(tactic| with_reducible apply View.sliceU_into)

theorem View.reshapeU_into (p : Profile) (v : View T) (s : List Nat) : Into Fail.DebugFuel (v.reshapeU .debug s) (v.reshapeU p s) := by
  unfold View.reshapeU; into
macro_rules | `(tactic| into_step) => `(tactic| with_reducible apply View.reshapeU_into)

theorem View.getU_into (p : Profile) (v : View T) (index : List Nat) : Into Fail.DebugFuel (v.getU .debug index) (v.getU p index) := by
  unfold View.getU; into
macro_rules | `(tactic| into_step) => `(tactic| with_reducible apply View.getU_into)

theorem TL.getU_into (p : Profile) (x : TL T) (index : List Nat) : Into Fail.DebugFuel (x.getU .debug index) (x.getU p index) := by
  unfold TL.getU; split <;> into
macro_rules | `(tactic| into_step) => `(tactic| with_reducible apply TL.getU_into)

theorem forElemsU_into (p : Profile) {σ : Type _} (x : TL T) (s : σ) (f : σ → T → R σ) : Into Fail.DebugFuel (forElemsU .debug x s f) (forElemsU p x s f) := by
  unfold forElemsU; into
macro_rules | `(tactic| into_step) => `(tactic| with_reducible apply forElemsU_into)

theorem TL.toTensorU_into (p : Profile) (x : TL T) : Into Fail.DebugFuel (x.toTensorU .debug) (x.toTensorU p) := by
  unfold TL.toTensorU; split <;> into
macro_rules | `(tactic| into_step) => `(tactic| with_reducible apply TL.toTensorU_into)

theorem TL.sumU_into (p : Profile) [Zero T] [Add T] (x : TL T) : Into Fail.DebugFuel (x.sumU .debug) (x.sumU p) := by
  unfold TL.sumU; split <;> into
macro_rules | `(tactic| into_step) => `(tactic| with_reducible apply TL.sumU_into)

theorem TL.getFirstElemU_into (p : Profile) (x : TL T) : Into Fail.DebugFuel (x.getFirstElemU .debug) (x.getFirstElemU p) := by
  unfold TL.getFirstElemU; into
macro_rules | `(tactic| into_step) => `(tactic| with_reducible apply TL.getFirstElemU_into)

theorem TL.leftScalarMulU_into (p : Profile) [Mul T] (x : TL T) (s : T) : Into Fail.DebugFuel (x.leftScalarMulU .debug s) (x.leftScalarMulU p s) := by
  unfold TL.leftScalarMulU; into
macro_rules | `(tactic| into_step) => `(tactic| with_reducible apply TL.leftScalarMulU_into)

theorem TL.rightScalarMulU_into (p : Profile) [Mul T] (x : TL T) (s : T) : Into Fail.DebugFuel (x.rightScalarMulU .debug s) (x.rightScalarMulU p s) := by
  unfold TL.rightScalarMulU; into
macro_rules | `(tactic| into_step) => `(tactic| with_reducible apply TL.rightScalarMulU_into)

theorem addRawU_into (p : Profile) [Zero T] [Add T] (l r : TL T) : Into Fail.DebugFuel (addRawU .debug l r) (addRawU p l r) := by
  unfold addRawU genericBinopRawU; into
macro_rules | `(tactic| into_step) => `(tactic| with_reducible apply addRawU_into)

theorem genericUnaryOpU_into (p : Profile) (x : TL T) (f : T → T) : Into Fail.DebugFuel (genericUnaryOpU .debug x f) (genericUnaryOpU p x f) := by
  unfold genericUnaryOpU; into
macro_rules | `(tactic| into_step) => `(tactic| with_reducible apply genericUnaryOpU_into)

theorem subRawU_into (p : Profile) [Zero T] [Add T] [Neg T] (l r : TL T) : Into Fail.DebugFuel (subRawU .debug l r) (subRawU p l r) := by
  unfold subRawU negRawU; into
macro_rules | `(tactic| into_step) => `(tactic| with_reducible apply subRawU_into)

theorem elementWiseMulU_into (p : Profile) [Mul T] (l r : TL T) : Into Fail.DebugFuel (elementWiseMulU .debug l r) (elementWiseMulU p l r) := by
  unfold elementWiseMulU; into
macro_rules | `(tactic| into_step) => `(tactic| with_reducible apply elementWiseMulU_into)

theorem mulRawU_into (p : Profile) [Mul T] (l : Raw T) (r : TL T) : Into Fail.DebugFuel (mulRawU .debug l r) (mulRawU p l r) := by
  unfold mulRawU; split <;> [skip; split] <;> into
macro_rules | `(tactic| into_step) => `(tactic| with_reducible apply mulRawU_into)

theorem bmmEntryU_into (p : Profile) [Zero T] [Add T] [Mul T] (l r : TL T) (li ri : List Nat) (n j : Nat) :
    Into Fail.DebugFuel (bmmEntryU .debug l r li ri n j) (bmmEntryU p l r li ri n j) := by
  unfold bmmEntryU; into
macro_rules | `(tactic| into_step) => `(tactic| with_reducible apply bmmEntryU_into)

theorem bmmRawU_into (p : Profile) [Zero T] [Add T] [Mul T] (l r : TL T) : Into Fail.DebugFuel (bmmRawU .debug l r) (bmmRawU p l r) := by
  unfold bmmRawU; into
macro_rules | `(tactic| into_step) => `(tactic| with_reducible apply bmmRawU_into)

theorem diagLoopU_into (p : Profile) [Add T] [Mul T] (dg : Raw T) (js bs is : List Nat) (g : Raw T) (d0 : Nat) :
    ∀ (n m : Nat) (i o : List Nat) (a : List T), n ≤ m → Into Fail.DebugFuel (diagLoopU .debug dg js bs is g d0 n i o a) (diagLoopU p dg js bs is g d0 m i o a) := by
  intro n
  induction n with
  | zero => intro m i o a _; exact Into.error (.inr rfl) _
  | succ n ih =>
    intro m i o a hm
    obtain ⟨m, rfl⟩ : ∃ k, m = k + 1 := ⟨m - 1, by omega⟩
    unfold diagLoopU
    into
    dsimp only
    split
    · into; exact ih m _ _ _ (by omega)
    · into

theorem jvpFromDiagonalBroadcastU_into (p : Profile) [Zero T] [Add T] [Mul T] (dg : Raw T) (js bs is : List Nat) (g : Raw T) :
    Into Fail.DebugFuel (jvpFromDiagonalBroadcastU .debug dg js bs is g) (jvpFromDiagonalBroadcastU p dg js bs is g) := by
  unfold jvpFromDiagonalBroadcastU; into
  dsimp only
  split <;> into <;> exact diagLoopU_into (T := T) p _ _ _ _ _ _ _ _ _ _ _ (iterFuelU_le _ _)
macro_rules | `(tactic| into_step) => `(tactic| with_reducible apply jvpFromDiagonalBroadcastU_into)

theorem genericBinopJvpU_into (p : Profile) [Zero T] [Add T] [Mul T] (l r g : Raw T) (f : T → T → T) :
    Into Fail.DebugFuel (genericBinopJvpU .debug l r g f) (genericBinopJvpU p l r g f) := by
  unfold genericBinopJvpU; into
  dsimp only
  split <;> into
macro_rules | `(tactic| into_step) => `(tactic| with_reducible apply genericBinopJvpU_into)

theorem genericUnaryJvpU_into (p : Profile) [Zero T] [Add T] [Mul T] (t g : Raw T) (f : T → T) :
    Into Fail.DebugFuel (genericUnaryJvpU .debug t g f) (genericUnaryJvpU p t g f) := by
  unfold genericUnaryJvpU; into
macro_rules | `(tactic| into_step) => `(tactic| with_reducible apply genericUnaryJvpU_into)

theorem tanhJacobianU_into (p : Profile) [Zero T] [One T] [Sub T] [RealFn T] (t : Raw T) :
    Into Fail.DebugFuel (tanhJacobianU .debug t) (tanhJacobianU p t) := by
  unfold tanhJacobianU; into
macro_rules | `(tactic| into_step) => `(tactic| with_reducible apply tanhJacobianU_into)

theorem oneElemU_into (p : Profile) (t : Raw T) : Into Fail.DebugFuel (oneElemU .debug t) (oneElemU p t) := by
  unfold oneElemU; split <;> into
macro_rules | `(tactic| into_step) => `(tactic| with_reducible apply oneElemU_into)

theorem jvpFromFullJacobiansU_into (p : Profile) [Zero T] [Add T] [Mul T] (l r : Raw T) :
    Into Fail.DebugFuel (jvpFromFullJacobiansU .debug l r) (jvpFromFullJacobiansU p l r) := by
  unfold jvpFromFullJacobiansU; into
  dsimp only
  split <;> into <;> (try dsimp only) <;> (try split) <;> into
macro_rules | `(tactic| into_step) => `(tactic| with_reducible apply jvpFromFullJacobiansU_into)

theorem segmentWriteU_into (p : Profile) [Add T] (a : List T) (s i : Nat) (v : T) : Into Fail.DebugFuel (segmentWriteU .debug a s i v) (segmentWriteU p a s i v) := by
  unfold segmentWriteU; into
macro_rules | `(tactic| into_step) => `(tactic| with_reducible apply segmentWriteU_into)

theorem bmmJvpShapesU_into (p : Profile) (a b j : Raw T) : Into Fail.DebugFuel (bmmJvpShapesU .debug a b j) (bmmJvpShapesU p a b j) := by
  unfold bmmJvpShapesU; into
macro_rules | `(tactic| into_step) => `(tactic| with_reducible apply bmmJvpShapesU_into)

theorem bmmJvpTaskU_into (p : Profile) [Mul T] (a b jac : Raw T) (sh : BmmJvpShapes) (i k j : Nat) :
    Into Fail.DebugFuel (bmmJvpTaskU .debug a b jac sh i k j) (bmmJvpTaskU p a b jac sh i k j) := by
  unfold bmmJvpTaskU; into
macro_rules | `(tactic| into_step) => `(tactic| with_reducible apply bmmJvpTaskU_into)

theorem bmmJvpTasksU_into (p : Profile) [Mul T] (a b jac : Raw T) (sh : BmmJvpShapes) :
    Into Fail.DebugFuel (bmmJvpTasksU .debug a b jac sh) (bmmJvpTasksU p a b jac sh) := by
  unfold bmmJvpTasksU; into
macro_rules | `(tactic| into_step) => `(tactic| with_reducible apply bmmJvpTasksU_into)

theorem deliverU_into (p : Profile) [Add T] (s : List T × List T) (m : Msg T) : Into Fail.DebugFuel (deliverU .debug s m) (deliverU p s m) := by
  unfold deliverU; split <;> into
macro_rules | `(tactic| into_step) => `(tactic| with_reducible apply deliverU_into)

theorem unaryTU_into (p : Profile) (h : Heap T) (t : Nat) (f : T → T) (k : JvpKind) : Into Fail.DebugFuel (unaryTU .debug h t f k) (unaryTU p h t f k) := by
  unfold unaryTU; into
macro_rules | `(tactic| into_step) => `(tactic| with_reducible apply unaryTU_into)

theorem addTU_into (p : Profile) [Zero T] [Add T] (h : Heap T) (l r : Nat) : Into Fail.DebugFuel (addTU .debug h l r) (addTU p h l r) := by
  unfold addTU; into
macro_rules | `(tactic| into_step) => `(tactic| with_reducible apply addTU_into)

theorem VExpr.evalU_into (p : Profile) (h : Heap T) (v : VExpr) : Into Fail.DebugFuel (v.evalU .debug h) (v.evalU p h) := by
  induction v with
  | view t r => unfold VExpr.evalU; into
  | reshape v s ih => unfold VExpr.evalU; into
  | slice v r ih => unfold VExpr.evalU; into
macro_rules | `(tactic| into_step) => `(tactic| with_reducible apply VExpr.evalU_into)

theorem Opnd.evalU_into (p : Profile) (h : Heap T) (x : Opnd) : Into Fail.DebugFuel (x.evalU .debug h) (x.evalU p h) := by
  unfold Opnd.evalU; split <;> into
macro_rules | `(tactic| into_step) => `(tactic| with_reducible apply Opnd.evalU_into)

theorem RawBin.valU_into (p : Profile) [Zero T] [Add T] [Mul T] (k : RawBin) (l r : TL T) : Into Fail.DebugFuel (k.valU .debug l r) (k.valU p l r) := by
  cases k <;> unfold RawBin.valU <;> into
macro_rules | `(tactic| into_step) => `(tactic| with_reducible apply RawBin.valU_into)

theorem updateGradU_into (p : Profile) [Zero T] [Add T] (h : Heap T) (t g : Nat) : Into Fail.DebugFuel (updateGradU .debug h t g) (updateGradU p h t g) := by
  unfold updateGradU; into
  split <;> into
macro_rules | `(tactic| into_step) => `(tactic| with_reducible apply updateGradU_into)

section backward

variable [Zero T] [One T] [Add T] [Mul T] [Sub T] [Neg T] [LT T] [DecidableLT T] [LE T] [DecidableLE T] [RealFn T]

theorem applyJvpU_into (p : Profile) (k : JvpKind) (i g : List (Raw T)) : Into Fail.DebugFuel (applyJvpU .debug k i g) (applyJvpU p k i g) := by
  cases k <;> unfold applyJvpU
  · unfold addJvpU; into
  · unfold negJvpU; into
  · unfold reluJvpU; into
  · unfold absJvpU; into
  · unfold tanhJvpU; into
  · unfold onesJvpU; into
  · unfold bmmJvpU; into
  · unfold dotJvpU; into
macro_rules | `(tactic| into_step) => `(tactic| with_reducible apply applyJvpU_into)

theorem computeJvpU_into (p : Profile) (n : Nat) (h : Heap T) (d : Deriv) (gs : List (Raw T)) :
    Into Fail.DebugFuel (computeJvpU .debug n h d gs) (computeJvpU p n h d gs) := by
  induction n generalizing h d gs with
  | zero => exact Into.rfl' _
  | succ n ih =>
    unfold computeJvpU
    into
    split
    · exact ih _ _ _
    · into
macro_rules | `(tactic| into_step) => `(tactic| with_reducible apply computeJvpU_into)

theorem runU_into (p : Profile) (h : Heap T) (o : Op T) : Into Fail.DebugFuel (o.runU .debug h) (o.runU p h) := by
  cases o <;> unfold Op.runU <;> try (into; done)
  · unfold subTU negTU; into
  · unfold negTU; into
  · unfold mulTU; into
  · unfold sumTU; into
  · unfold bmmTU; into
  · unfold bmmViewTU; into
  · unfold sumTU; into
  · unfold backwardU; into

theorem runOpsU_into (p : Profile) (h : Heap T) (ops : List (Op T)) : Into Fail.DebugFuel (runOpsU .debug h ops) (runOpsU p h ops) :=
  Into.foldlM (runU_into p) _ _

end backward

end RL
