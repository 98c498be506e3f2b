import Verif.Lemmas.MachineOps

/-!
# Success in the debug profile carries over to unbounded numbers
-/

namespace RL

open Spec

section

variable {α β : Type _} {S : Fail → Prop}

/-- A step on the left that is a plain value on the right. -/
theorem Into.step {x : R α} {a : α} {f : α → R β} {y : R β} (h : Into S x (.ok a)) (hf : Into S (f a) y) : Into S (x >>= f) y := by
  cases hx : x with
  | ok b => have := h.ok b hx; cases this; exact hf
  | error e =>
    rcases h.err e hx with h1 | h1
    · exact Into.error h1 _
    · cases h1

/-- A step on the left whose value is not used on the right. -/
theorem Into.skip {x : R α} {f : α → R β} {y : R β} (h : ∀ e, x = .error e → S e) (hf : ∀ a, Into S (f a) y) : Into S (x >>= f) y := by
  cases hx : x with
  | ok a => exact hf a
  | error e => exact Into.error (h e hx) _

theorem Into.trans {x y z : R α} (h : Into S x y) (h' : Into S y z) : Into S x z :=
  ⟨fun a ha => h'.ok a (h.ok a ha), fun e he => (h.err e he).elim .inl fun h1 => h'.err e h1⟩

/-- The same step on both sides. -/
theorem Into.bindEq {x : R α} {f g : α → R β} (h : ∀ a, x = .ok a → Into S (f a) (g a)) : Into S (x >>= f) (x >>= g) := by
  cases hx : x with
  | ok a => exact h a hx
  | error e => exact Into.rfl' _

theorem Into.only {x : R α} {a : α} (h : Into S x (.ok a)) : ∀ e, x = .error e → S e := by
  intro e he
  rcases h.err e he with h1 | h1
  · exact h1
  · cases h1

end

macro_rules | `(tactic| into_step) => `(tactic| with_reducible apply Into.unwrapR not_debugOnly)

theorem debugOnly_overflow : Fail.DebugOnly (.panic .overflow) := .inl rfl

theorem wrapU_nat (x : Nat) : Into Fail.DebugOnly (wrapU .debug x) (.ok x) := by
  unfold wrapU
  split
  · exact Into.rfl' _
  · exact Into.error debugOnly_overflow _

theorem mulU_nat (a b : Nat) : Into Fail.DebugOnly (mulU .debug a b) (.ok (a * b)) := wrapU_nat _

theorem addU_nat (a b : Nat) : Into Fail.DebugOnly (addU .debug a b) (.ok (a + b)) := wrapU_nat _

theorem subU_nat (a b : Nat) : Into Fail.DebugOnly (subU .debug a b) (subR a b) := by
  unfold subU subR
  split
  · exact Into.rfl' _
  · exact Into.error debugOnly_overflow _
macro_rules | `(tactic| into_step) => `(tactic| with_reducible apply subU_nat)

theorem debugAssertR_nat (c : Bool) : Into Fail.DebugOnly (debugAssertR .debug c) (assertR c) := by
  cases c
  · exact Into.error (.inr rfl) _
  · exact Into.rfl' _
macro_rules | `(tactic| into_step) => `(tactic| with_reducible apply debugAssertR_nat)

theorem debugAssertR_only (c : Bool) : ∀ e, debugAssertR .debug c = .error e → Fail.DebugOnly e := by
  intro e he
  cases c <;> cases he
  exact .inr rfl

theorem prodU_nat (l : List Nat) : Into Fail.DebugOnly (prodU .debug l) (.ok l.prod) := by
  have key : ∀ (l : List Nat) (a : Nat), Into Fail.DebugOnly (l.foldlM (mulU .debug) a) (.ok (a * l.prod)) := by
    intro l
    induction l with
    | nil => intro a; rw [List.prod_nil, mul_one]; exact Into.rfl' _
    | cons d l ih =>
      intro a
      rw [List.foldlM_cons, List.prod_cons, ← mul_assoc]
      exact (mulU_nat a d).step (ih _)
  have := key l 1
  rwa [one_mul] at this

variable {T : Type}

theorem newU_nat (array : List T) (shape : List Nat) : Into Fail.DebugOnly (Raw.newU .debug array shape) (Raw.new array shape) := by
  unfold Raw.newU Raw.new
  rw [foldl_mul_eq, one_mul]
  exact (prodU_nat shape).step (Into.rfl' _)
macro_rules | `(tactic| into_step) => `(tactic| with_reducible apply newU_nat)

theorem newWithFillerU_nat (shape : List Nat) (v : T) : Into Fail.DebugOnly (Raw.newWithFillerU .debug shape v) (.ok (Raw.newWithFiller shape v)) := by
  unfold Raw.newWithFillerU Raw.newWithFiller
  rw [foldl_mul_eq, one_mul]
  split
  · exact Into.rfl' _
  · exact (prodU_nat shape).step (Into.rfl' _)

theorem incrementLoopU_nat (index shape : List Nat) (i : Nat) :
    Into Fail.DebugOnly (incrementLoopU .debug index shape i) (incrementLoop index shape i) := by
  induction i with
  | zero => exact Into.rfl' _
  | succ i ih =>
    unfold incrementLoopU incrementLoop
    into
    split
    · exact (addU_nat _ _).step (Into.rfl' _)
    · into

theorem incrementIndexU_nat (index shape : List Nat) :
    Into Fail.DebugOnly (incrementIndexU .debug index shape) (incrementIndex index shape) := incrementLoopU_nat _ _ _
macro_rules | `(tactic| into_step) => `(tactic| with_reducible apply incrementIndexU_nat)

theorem globalIndexLoopU_nat (n : Nat) (offset : Option (List SliceRange)) (l : List (Nat × Nat)) (k g m : Nat) :
    Into Fail.DebugOnly (globalIndexLoopU .debug n offset l k g m) (globalIndexLoop n offset l k g m) := by
  induction l generalizing k g m with
  | nil => exact Into.rfl' _
  | cons x l ih =>
    obtain ⟨dim, idx⟩ := x
    unfold globalIndexLoopU globalIndexLoop
    have hs : ∀ a b, Into Fail.DebugOnly (subU .debug a b) (.ok (a - b)) := by
      intro a b; unfold subU; split
      · exact Into.rfl' _
      · exact Into.error debugOnly_overflow _
    refine (hs _ _).step ((hs _ _).step ?_)
    split
    · exact ih _ _ _
    · have key : ∀ d s, Into Fail.DebugOnly (if d ≤ idx then R.err .viewBounds else if dim ≤ s then R.err .dimBounds else do
          let step ← mulU .debug s m
          let globalIdx ← addU .debug g step
          let multiplier ← mulU .debug m dim
          globalIndexLoopU .debug n offset l (k + 1) globalIdx multiplier)
          (if d ≤ idx then R.err .viewBounds else if dim ≤ s then R.err .dimBounds else
            globalIndexLoop n offset l (k + 1) (g + s * m) (m * dim)) := by
        intro d s
        split
        · into
        · split
          · into
          · exact (mulU_nat _ _).step ((addU_nat _ _).step ((mulU_nat _ _).step (ih _ _ _)))
      cases offset with
      | none => exact key _ _
      | some rs =>
        refine Into.bind (Into.rfl' _) fun r => Into.bind (subU_nat _ _) fun len => (addU_nat _ _).step ?_
        exact key _ _

theorem globalIndexU_nat (index shape : List Nat) (offset : Option (List SliceRange)) :
    Into Fail.DebugOnly (globalIndexU .debug index shape offset) (globalIndex index shape offset) := by
  unfold globalIndexU globalIndex
  split
  · into
  · exact globalIndexLoopU_nat _ _ _ _ _ _
macro_rules | `(tactic| into_step) => `(tactic| with_reducible apply globalIndexU_nat)

theorem IndexIter.nextU_nat (it : IndexIter) : Into Fail.DebugOnly (it.nextU .debug) it.next := by
  unfold IndexIter.nextU IndexIter.next
  split <;> into

theorem iterLoopU_nat {σ : Type _} {f g : σ → List Nat → R σ} (h : ∀ s i, Into Fail.DebugOnly (f s i) (g s i)) :
    ∀ (n : Nat) (it : IndexIter) (s : σ), Into Fail.DebugOnly (iterLoopU .debug f n it s) (iterLoop g n it s) := by
  intro n
  induction n with
  | zero => intro it s; exact Into.rfl' _
  | succ n ih =>
    intro it s
    unfold iterLoopU iterLoop
    refine (IndexIter.nextU_nat it).bind fun x => ?_
    dsimp only
    cases x.1 with
    | none => exact Into.rfl' _
    | some idx => exact (h s idx).bind fun s' => ih _ _

theorem forIndicesU_nat {σ : Type _} (dims : List Nat) (s : σ) {f g : σ → List Nat → R σ} (h : ∀ s i, Into Fail.DebugOnly (f s i) (g s i)) :
    Into Fail.DebugOnly (forIndicesU .debug dims s f) (forIndices dims s g) := iterLoopU_nat h _ _ _
macro_rules | `(tactic| into_step) => `(tactic| with_reducible apply forIndicesU_nat)

theorem Raw.getU_nat (t : Raw T) (index : List Nat) : Into Fail.DebugOnly (t.getU .debug index) (t.get index) := by
  unfold Raw.getU Raw.get; into
macro_rules | `(tactic| into_step) => `(tactic| with_reducible apply Raw.getU_nat)

theorem Raw.setU_nat (t : Raw T) (index : List Nat) (v : T) : Into Fail.DebugOnly (t.setU .debug index v) (t.set index v) := by
  unfold Raw.setU Raw.set; into
macro_rules | `(tactic| into_step) => `(tactic| with_reducible apply Raw.setU_nat)

theorem Raw.atU_nat (t : Raw T) (index : List Nat) : Into Fail.DebugOnly (t.atU .debug index) (t.at index) := by
  unfold Raw.atU Raw.at; into
macro_rules | `(tactic| into_step) => `(tactic| with_reducible apply Raw.atU_nat)

theorem viewShapeU_nat (l : List (SliceRange × Nat)) : Into Fail.DebugOnly (viewShapeU .debug l) (viewShape l) := by
  induction l with
  | nil => exact Into.rfl' _
  | cons x l ih => unfold viewShapeU viewShape; into
macro_rules | `(tactic| into_step) => `(tactic| with_reducible apply viewShapeU_nat)

theorem View.newU_nat (t : Raw T) (o : List SliceRange) : Into Fail.DebugOnly (View.newU .debug t o) (View.new t o) := by
  unfold View.newU View.new; into
macro_rules | `(tactic| into_step) => `(tactic| with_reducible apply View.newU_nat)

theorem View.sliceU_nat (v : View T) (o : List SliceRange) : Into Fail.DebugOnly (v.sliceU .debug o) (v.slice o) := by
  unfold View.sliceU View.slice; into
macro_rules | `(tactic| into_step) => `(tactic| with_reducible apply View.sliceU_nat)

theorem View.reshapeU_nat (v : View T) (s : List Nat) : Into Fail.DebugOnly (v.reshapeU .debug s) (v.reshape s) := by
  unfold View.reshapeU View.reshape
  exact (prodU_nat _).step ((prodU_nat _).step (Into.rfl' _))
macro_rules | `(tactic| into_step) => `(tactic| with_reducible apply View.reshapeU_nat)

theorem View.getU_nat (v : View T) (index : List Nat) : Into Fail.DebugOnly (v.getU .debug index) (v.get index) := by
  unfold View.getU View.get; into
macro_rules | `(tactic| into_step) => `(tactic| with_reducible apply View.getU_nat)

theorem TL.getU_nat (x : TL T) (index : List Nat) : Into Fail.DebugOnly (x.getU .debug index) (x.get index) := by
  unfold TL.getU TL.get; cases x <;> dsimp only <;> into
macro_rules | `(tactic| into_step) => `(tactic| with_reducible apply TL.getU_nat)

theorem forElemsU_nat {σ : Type _} (x : TL T) (s : σ) (f : σ → T → R σ) : Into Fail.DebugOnly (forElemsU .debug x s f) (forElems x s f) := by
  unfold forElemsU forElems; into
macro_rules | `(tactic| into_step) => `(tactic| with_reducible apply forElemsU_nat)

theorem TL.toTensorU_nat (x : TL T) : Into Fail.DebugOnly (x.toTensorU .debug) x.toTensor := by
  unfold TL.toTensorU TL.toTensor
  cases x <;> dsimp only
  · into
  · refine Into.skip (prodU_nat _).only fun _ => ?_
    into
macro_rules | `(tactic| into_step) => `(tactic| with_reducible apply TL.toTensorU_nat)

theorem TL.sumU_nat [Zero T] [Add T] (x : TL T) : Into Fail.DebugOnly (x.sumU .debug) x.sum := by
  unfold TL.sumU TL.sum; cases x <;> dsimp only <;> into
macro_rules | `(tactic| into_step) => `(tactic| with_reducible apply TL.sumU_nat)

theorem TL.getFirstElemU_nat (x : TL T) : Into Fail.DebugOnly (x.getFirstElemU .debug) x.getFirstElem := by
  unfold TL.getFirstElemU TL.getFirstElem; into
macro_rules | `(tactic| into_step) => `(tactic| with_reducible apply TL.getFirstElemU_nat)

theorem TL.leftScalarMulU_nat [Mul T] (x : TL T) (s : T) : Into Fail.DebugOnly (x.leftScalarMulU .debug s) (.ok (x.leftScalarMul s)) :=
  Into.skip (prodU_nat _).only fun _ => Into.rfl' _
macro_rules | `(tactic| into_step) => `(tactic| with_reducible apply TL.leftScalarMulU_nat)

theorem TL.rightScalarMulU_nat [Mul T] (x : TL T) (s : T) : Into Fail.DebugOnly (x.rightScalarMulU .debug s) (.ok (x.rightScalarMul s)) :=
  Into.skip (prodU_nat _).only fun _ => Into.rfl' _
macro_rules | `(tactic| into_step) => `(tactic| with_reducible apply TL.rightScalarMulU_nat)

theorem addRawU_nat [Zero T] [Add T] (l r : TL T) : Into Fail.DebugOnly (addRawU .debug l r) (addRaw l r) := by
  unfold addRawU genericBinopRawU addRaw genericBinopRaw
  refine Into.bind (Into.rfl' _) fun _ => (newWithFillerU_nat _ _).step ?_
  into
macro_rules | `(tactic| into_step) => `(tactic| with_reducible apply addRawU_nat)

theorem genericUnaryOpU_nat (x : TL T) (f : T → T) : Into Fail.DebugOnly (genericUnaryOpU .debug x f) (genericUnaryOp x f) := by
  unfold genericUnaryOpU genericUnaryOp; into
  exact Into.foldlM (fun s a => by into) _ _
macro_rules | `(tactic| into_step) => `(tactic| with_reducible apply genericUnaryOpU_nat)

theorem subRawU_nat [Zero T] [Add T] [Neg T] (l r : TL T) : Into Fail.DebugOnly (subRawU .debug l r) (subRaw l r) := by
  unfold subRawU negRawU subRaw negRaw; into
macro_rules | `(tactic| into_step) => `(tactic| with_reducible apply subRawU_nat)

theorem elementWiseMulU_nat [Mul T] (l r : TL T) : Into Fail.DebugOnly (elementWiseMulU .debug l r) (elementWiseMul l r) := by
  unfold elementWiseMulU elementWiseMul; into
macro_rules | `(tactic| into_step) => `(tactic| with_reducible apply elementWiseMulU_nat)

theorem mulRawU_nat [Mul T] (l : Raw T) (r : TL T) : Into Fail.DebugOnly (mulRawU .debug l r) (mulRaw l r) := by
  unfold mulRawU mulRaw; split <;> [skip; split] <;> into <;>
    first | exact TL.leftScalarMulU_nat _ _ | exact TL.rightScalarMulU_nat _ _
macro_rules | `(tactic| into_step) => `(tactic| with_reducible apply mulRawU_nat)

theorem bmmEntryU_nat [Zero T] [Add T] [Mul T] (l r : TL T) (li ri : List Nat) (n j : Nat) :
    Into Fail.DebugOnly (bmmEntryU .debug l r li ri n j) (bmmEntry l r li ri n j) := by
  unfold bmmEntryU bmmEntry; into
macro_rules | `(tactic| into_step) => `(tactic| with_reducible apply bmmEntryU_nat)

theorem foldlM_rows {α : Type _} {ncol : Nat} {f g : α → R (List T)} (h : ∀ i, Into Fail.DebugOnly (f i) (g i)) :
    ∀ (l : List α) (s : List T × Nat), l.length * ncol ≤ s.2 → Into Fail.DebugOnly (l.foldlM (fun (acc : List T × Nat) i => do
        assertR (decide (ncol ≤ acc.2))
        let row ← f i
        return (acc.1 ++ row, acc.2 - ncol)) s)
      (do
        let a ← l.foldlM (fun (acc : List T) i => do let row ← g i; return acc ++ row) s.1
        return (a, s.2 - l.length * ncol)) := by
  intro l
  induction l with
  | nil => intro s _; simp only [List.foldlM_nil, List.length_nil, zero_mul, Nat.sub_zero, pure_bind]; exact Into.rfl' _
  | cons i l ih =>
    intro s hs
    rw [List.length_cons, Nat.succ_mul] at hs
    have h1 : decide (ncol ≤ s.2) = true := by rw [decide_eq_true_eq]; omega
    simp only [List.foldlM_cons, h1, bind_assoc, pure_bind]
    refine Into.step (Into.rfl' _) ((h i).bind fun row => ?_)
    have := ih (s.1 ++ row, s.2 - ncol) (by dsimp only; omega)
    dsimp only at this
    rwa [show s.2 - ncol - l.length * ncol = s.2 - (l.length + 1) * ncol by rw [Nat.succ_mul]; omega] at this

theorem foldlM_rows2 {α β : Type _} {ncol : Nat} {f g : β → α → R (List T)} (h : ∀ b i, Into Fail.DebugOnly (f b i) (g b i)) (l : List α) :
    ∀ (bs : List β) (s : List T × Nat), bs.length * (l.length * ncol) ≤ s.2 → Into Fail.DebugOnly
      (bs.foldlM (fun (acc : List T × Nat) b => l.foldlM (fun (acc : List T × Nat) i => do
        assertR (decide (ncol ≤ acc.2))
        let row ← f b i
        return (acc.1 ++ row, acc.2 - ncol)) acc) s)
      (do
        let a ← bs.foldlM (fun (acc : List T) b => l.foldlM (fun (acc : List T) i => do let row ← g b i; return acc ++ row) acc) s.1
        return (a, s.2 - bs.length * (l.length * ncol))) := by
  intro bs
  induction bs with
  | nil => intro s _; simp only [List.foldlM_nil, List.length_nil, zero_mul, Nat.sub_zero, pure_bind]; exact Into.rfl' _
  | cons b bs ih =>
    intro s hs
    rw [List.length_cons, Nat.succ_mul] at hs
    rw [List.foldlM_cons, List.foldlM_cons, bind_assoc]
    have key := foldlM_rows (ncol := ncol) (h b) l s (by omega)
    have := Into.bind key (fun s' => Into.rfl' (S := Fail.DebugOnly) (bs.foldlM (fun (acc : List T × Nat) b =>
      l.foldlM (fun (acc : List T × Nat) i => do
        assertR (decide (ncol ≤ acc.2))
        let row ← f b i
        return (acc.1 ++ row, acc.2 - ncol)) acc) s'))
    refine this.trans ?_
    simp only [bind_assoc, pure_bind]
    refine Into.bind (Into.rfl' _) fun a => ?_
    have := ih (a, s.2 - l.length * ncol) (by dsimp only; omega)
    dsimp only at this
    rwa [show s.2 - l.length * ncol - bs.length * (l.length * ncol) = s.2 - (bs.length + 1) * (l.length * ncol) by
      rw [Nat.succ_mul]; omega] at this

theorem bmmShape_three {l r : TL T} {sh : List Nat} (h : bmmShape l r = .ok sh) : ∃ a b c, sh = [a, b, c] := by
  unfold bmmShape at h
  simp only [R.bind_eq_ok] at h
  obtain ⟨n, _, l0, _, h⟩ := h
  split at h
  · cases h; exact ⟨_, _, _, rfl⟩
  · rw [R.bind_eq_ok] at h
    obtain ⟨l1, _, h⟩ := h
    cases h; exact ⟨_, _, _, rfl⟩

theorem bmmRawU_nat [Zero T] [Add T] [Mul T] (l r : TL T) : Into Fail.DebugOnly (bmmRawU .debug l r) (bmmRaw l r) := by
  unfold bmmRawU bmmRaw
  refine Into.bind (Into.rfl' _) fun _ => Into.bindEq fun sh hsh => ?_
  obtain ⟨nb, nrow, ncol, rfl⟩ := bmmShape_three hsh
  refine (prodU_nat _).step ?_
  simp only [show ([nb, nrow, ncol] : List Nat).prod = nb * (nrow * ncol) by simp]
  refine Into.bindEq fun nb' h0 => Into.bindEq fun nrow' h1 => Into.bindEq fun ncol' h2 => ?_
  cases h0; cases h1; cases h2
  refine Into.bind (Into.rfl' _) fun rows => ?_
  have key := foldlM_rows2 (T := T) (ncol := ncol) (f := fun batch i => (List.range ncol).mapM fun j =>
      bmmEntryU .debug l r (bmmLeftIndex l batch i) r.shape rows j) (g := fun batch i => (List.range ncol).mapM fun j =>
      bmmEntry l r (bmmLeftIndex l batch i) r.shape rows j) (fun b i => by into) (List.range nrow) (List.range nb) ([], nb * (nrow * ncol))
      (by simp)
  refine (key.bind fun _ => Into.rfl' _).trans ?_
  simp only [bind_assoc, pure_bind, List.length_range, Nat.sub_self, List.replicate_zero, List.append_nil]
  exact Into.rfl' _
macro_rules | `(tactic| into_step) => `(tactic| with_reducible apply bmmRawU_nat)

theorem diagLoopU_nat [Add T] [Mul T] (dg : Raw T) (js bs is : List Nat) (g : Raw T) (d0 : Nat) :
    ∀ (n : Nat) (i o : List Nat) (a : List T), Into Fail.DebugOnly (diagLoopU .debug dg js bs is g d0 n i o a) (diagLoop dg js bs is g d0 n i o a) := by
  intro n
  induction n with
  | zero => intro i o a; exact Into.rfl' _
  | succ n ih =>
    intro i o a
    unfold diagLoopU diagLoop
    into
    dsimp only
    split
    · into; exact ih _ _ _
    · into

theorem jvpFromDiagonalBroadcastU_nat [Zero T] [Add T] [Mul T] (dg : Raw T) (js bs is : List Nat) (g : Raw T) :
    Into Fail.DebugOnly (jvpFromDiagonalBroadcastU .debug dg js bs is g) (jvpFromDiagonalBroadcast dg (some js) bs is g) := by
  unfold jvpFromDiagonalBroadcastU jvpFromDiagonalBroadcast
  refine Into.bind (debugAssertR_nat _) fun _ => ?_
  have key : ∀ dim0 : Nat, Into Fail.DebugOnly (do
      let s0 ← idxR js 0
      assertR (dim0 == s0)
      let s1 ← idxR js 1
      let len ← mulU .debug s0 s1
      let array ← diagLoopU .debug dg js bs is g dim0
        (iterFuelU .debug dg.shape) (List.replicate dg.shape.length 0)
        (List.replicate bs.length 0) (List.replicate len 0)
      Raw.newU .debug array js) (do
      let s0 ← idxR js 0
      assertR (dim0 == s0)
      let s1 ← idxR js 1
      let array ← diagLoop dg js bs is g dim0
        (iterFuel dg.shape) (List.replicate dg.shape.length 0)
        (List.replicate bs.length 0) (List.replicate (s0 * s1) 0)
      Raw.new array js) := by
    intro dim0
    refine Into.bind (Into.rfl' _) fun _ => Into.bind (Into.rfl' _) fun _ => Into.bind (Into.rfl' _) fun _ => (mulU_nat _ _).step ?_
    exact (diagLoopU_nat _ _ _ _ _ _ _ _ _ _).bind fun _ => newU_nat _ _
  dsimp only
  split
  · exact key 1
  · exact Into.bind (Into.rfl' _) fun a => key a
macro_rules | `(tactic| into_step) => `(tactic| with_reducible apply jvpFromDiagonalBroadcastU_nat)

theorem genericBinopJvpU_nat [Zero T] [Add T] [Mul T] (l r g : Raw T) (f : T → T → T) :
    Into Fail.DebugOnly (genericBinopJvpU .debug l r g f) (genericBinopJvp l r g f) := by
  unfold genericBinopJvpU genericBinopJvp
  refine (prodU_nat _).step ?_
  dsimp only
  split
  · refine Into.bind (Into.rfl' _) fun _ => Into.bind (Into.rfl' _) fun _ => Into.bind (Into.rfl' _) fun _ =>
      Into.bind (by into) fun _ => Into.bind (by into) fun _ => Into.skip (debugAssertR_only _) fun _ => ?_
    into
  · refine Into.bind (Into.rfl' _) fun _ =>
      Into.bind (by into) fun _ => Into.bind (by into) fun _ => Into.skip (debugAssertR_only _) fun _ => ?_
    into
macro_rules | `(tactic| into_step) => `(tactic| with_reducible apply genericBinopJvpU_nat)

theorem genericUnaryJvpU_nat [Zero T] [Add T] [Mul T] (t g : Raw T) (f : T → T) :
    Into Fail.DebugOnly (genericUnaryJvpU .debug t g f) (genericUnaryJvp t g f) := by
  unfold genericUnaryJvpU genericUnaryJvp; into
macro_rules | `(tactic| into_step) => `(tactic| with_reducible apply genericUnaryJvpU_nat)

theorem tanhJacobianU_nat [Zero T] [One T] [Sub T] [RealFn T] (t : Raw T) : Into Fail.DebugOnly (tanhJacobianU .debug t) (tanhJacobian t) := by
  unfold tanhJacobianU tanhJacobian
  refine (prodU_nat _).step (Into.skip (mulU_nat _ _).only fun _ => ?_)
  into
macro_rules | `(tactic| into_step) => `(tactic| with_reducible apply tanhJacobianU_nat)

theorem oneElemU_nat (t : Raw T) : Into Fail.DebugOnly (oneElemU .debug t) (.ok (t.isScalar || t.shape.prod == 1)) := by
  unfold oneElemU
  split
  · next h => rw [h]; exact Into.rfl' _
  · next h =>
    rw [Bool.not_eq_true] at h
    rw [h]
    exact (prodU_nat _).step (Into.rfl' _)

theorem jvpFromFullJacobiansU_nat [Zero T] [Add T] [Mul T] (l r : Raw T) :
    Into Fail.DebugOnly (jvpFromFullJacobiansU .debug l r) (jvpFromFullJacobians l r) := by
  unfold jvpFromFullJacobiansU jvpFromFullJacobians
  have key : ∀ b : Bool, Into Fail.DebugOnly (if b = true then do
        let c ← oneElemU .debug l
        assertR c
        mulRawU .debug l (.raw r)
      else bmmRawU .debug (.raw l) (.raw r)) (if b = true then do
        assertR (l.isScalar || l.shape.prod == 1)
        mulRaw l (.raw r)
      else bmmRaw (.raw l) (.raw r)) := by
    intro b
    cases b
    · simp only [Bool.false_eq_true, if_false]; into
    · simp only [if_true]
      exact (oneElemU_nat l).step (by into)
  rw [Bool.or_assoc]
  refine (oneElemU_nat r).step ?_
  cases hr : (r.isScalar || r.shape.prod == 1)
  · simp only [Bool.false_eq_true, if_false, Bool.false_or]
    exact (oneElemU_nat l).step (key _)
  · exact key true
macro_rules | `(tactic| into_step) => `(tactic| with_reducible apply jvpFromFullJacobiansU_nat)

theorem segmentWriteU_nat [Add T] (a : List T) (s i : Nat) (v : T) : Into Fail.DebugOnly (segmentWriteU .debug a s i v) (segmentWrite a s i v) := by
  unfold segmentWriteU segmentWrite
  refine Into.bind (Into.rfl' _) fun _ => (mulU_nat _ _).step ?_
  into
macro_rules | `(tactic| into_step) => `(tactic| with_reducible apply segmentWriteU_nat)

theorem bmmJvpShapesU_nat (a b j : Raw T) : Into Fail.DebugOnly (bmmJvpShapesU .debug a b j) (bmmJvpShapes a b j) := by
  unfold bmmJvpShapesU bmmJvpShapes
  refine Into.bind (Into.rfl' _) fun _ => Into.bind (Into.rfl' _) fun _ => Into.bind (Into.rfl' _) fun _ => Into.bind (Into.rfl' _) fun _ =>
    Into.bind (Into.rfl' _) fun _ => (mulU_nat _ _).step ((mulU_nat _ _).step ?_)
  exact Into.bind (Into.rfl' _) fun _ => (mulU_nat _ _).step (Into.rfl' _)
macro_rules | `(tactic| into_step) => `(tactic| with_reducible apply bmmJvpShapesU_nat)

theorem bmmJvpTaskU_nat [Mul T] (a b jac : Raw T) (sh : BmmJvpShapes) (i k j : Nat) :
    Into Fail.DebugOnly (bmmJvpTaskU .debug a b jac sh i k j) (bmmJvpTask a b jac sh i k j) := by
  unfold bmmJvpTaskU bmmJvpTask; into
macro_rules | `(tactic| into_step) => `(tactic| with_reducible apply bmmJvpTaskU_nat)

theorem bmmJvpTasksU_nat [Mul T] (a b jac : Raw T) (sh : BmmJvpShapes) :
    Into Fail.DebugOnly (bmmJvpTasksU .debug a b jac sh) (bmmJvpTasks a b jac sh) := by
  unfold bmmJvpTasksU bmmJvpTasks; into
macro_rules | `(tactic| into_step) => `(tactic| with_reducible apply bmmJvpTasksU_nat)

theorem deliverU_nat [Add T] (s : List T × List T) (m : Msg T) : Into Fail.DebugOnly (deliverU .debug s m) (deliver s m) := by
  unfold deliverU deliver; split <;> into
macro_rules | `(tactic| into_step) => `(tactic| with_reducible apply deliverU_nat)

theorem bmmJvpU_nat [Zero T] [Add T] [Mul T] (i g : List (Raw T)) : Into Fail.DebugOnly (bmmJvpU .debug i g) (bmmJvp i g) := by
  unfold bmmJvpU bmmJvp
  refine Into.bind (Into.rfl' _) fun _ => Into.bind (Into.rfl' _) fun _ => Into.bind (Into.rfl' _) fun _ => Into.bind (Into.rfl' _) fun _ =>
    Into.bind (bmmJvpShapesU_nat _ _ _) fun sh => ?_
  dsimp only
  simp only [foldl_mul_eq, one_mul]
  refine (prodU_nat _).step ((prodU_nat _).step ?_)
  into
macro_rules | `(tactic| into_step) => `(tactic| with_reducible apply bmmJvpU_nat)

theorem addTU_nat [Zero T] [Add T] (h : Heap T) (l r : Nat) : Into Fail.DebugOnly (addTU .debug h l r) (addT h l r) := by
  unfold addTU addT; into
macro_rules | `(tactic| into_step) => `(tactic| with_reducible apply addTU_nat)

theorem negTU_nat [Neg T] (h : Heap T) (t : Nat) : Into Fail.DebugOnly (negTU .debug h t) (negT h t) := by
  unfold negTU unaryTU negT negRaw; into
macro_rules | `(tactic| into_step) => `(tactic| with_reducible apply negTU_nat)

theorem VExpr.evalU_nat (h : Heap T) (v : VExpr) : Into Fail.DebugOnly (v.evalU .debug h) (v.eval h) := by
  induction v with
  | view t r => unfold VExpr.evalU VExpr.eval; into
  | reshape v s ih => unfold VExpr.evalU VExpr.eval; into
  | slice v r ih => unfold VExpr.evalU VExpr.eval; into
macro_rules | `(tactic| into_step) => `(tactic| with_reducible apply VExpr.evalU_nat)

theorem Opnd.evalU_nat (h : Heap T) (x : Opnd) : Into Fail.DebugOnly (x.evalU .debug h) (x.eval h) := by
  unfold Opnd.evalU Opnd.eval; cases x <;> dsimp only <;> into
macro_rules | `(tactic| into_step) => `(tactic| with_reducible apply Opnd.evalU_nat)

theorem RawBin.valU_nat [Zero T] [Add T] [Mul T] (k : RawBin) (l r : TL T) : Into Fail.DebugOnly (k.valU .debug l r) (k.val l r) := by
  cases k <;> unfold RawBin.valU RawBin.val <;> into
macro_rules | `(tactic| into_step) => `(tactic| with_reducible apply RawBin.valU_nat)

theorem updateGradU_nat [Zero T] [Add T] (h : Heap T) (t g : Nat) : Into Fail.DebugOnly (updateGradU .debug h t g) (updateGrad h t g) := by
  unfold updateGradU updateGrad
  refine Into.bind (Into.rfl' _) fun n => ?_
  dsimp only
  cases n.grad <;> dsimp only <;> into
macro_rules | `(tactic| into_step) => `(tactic| with_reducible apply updateGradU_nat)

section backward

variable [Zero T] [One T] [Add T] [Mul T] [Sub T] [Neg T] [LT T] [DecidableLT T] [LE T] [DecidableLE T] [RealFn T]

theorem applyJvpU_nat (k : JvpKind) (i g : List (Raw T)) : Into Fail.DebugOnly (applyJvpU .debug k i g) (applyJvp k i g) := by
  cases k <;> unfold applyJvpU applyJvp
  · unfold addJvpU addJvp; into
  · unfold negJvpU negJvp; into
  · unfold reluJvpU reluJvp; into
  · unfold absJvpU absJvp; into
  · unfold tanhJvpU tanhJvp; into
  · unfold onesJvpU onesJvp
    refine Into.bind (Into.rfl' _) fun _ => Into.bind (Into.rfl' _) fun _ => Into.bind (Into.rfl' _) fun _ => (prodU_nat _).step ?_
    exact Into.bind (Into.rfl' _) fun _ => (prodU_nat _).step ((newWithFillerU_nat _ _).step (Into.rfl' _))
  · into
  · unfold dotJvpU dotJvp; into
macro_rules | `(tactic| into_step) => `(tactic| with_reducible apply applyJvpU_nat)

theorem computeJvpU_nat (n : Nat) (h : Heap T) (d : Deriv) (gs : List (Raw T)) :
    Into Fail.DebugOnly (computeJvpU .debug n h d gs) (computeJvp n h d gs) := by
  induction n generalizing h d gs with
  | zero => exact Into.rfl' _
  | succ n ih =>
    unfold computeJvpU computeJvp
    into
    next nd _ _ _ =>
    cases nd.gradFn
    · exact Into.rfl' _
    · exact ih _ _ _
macro_rules | `(tactic| into_step) => `(tactic| with_reducible apply computeJvpU_nat)

theorem runU_nat (h : Heap T) (o : Op T) : Into Fail.DebugOnly (o.runU .debug h) (o.run h) := by
  cases o <;> dsimp only [Op.runU, Op.run] <;> try (into; done)
  · exact (newWithFillerU_nat _ _).step (Into.rfl' _)
  · unfold subTU subT; into
  · unfold mulTU mulT; into
  · unfold unaryTU reluT reluRaw; into
  · unfold unaryTU tanhT tanhRaw; into
  · unfold unaryTU absT absRaw; into
  · unfold sumTU sumT
    refine Into.bind (Into.bind (Into.rfl' _) fun _ => Into.bind (TL.sumU_nat _) fun _ => ?_) fun _ => Into.rfl' _
    exact (newWithFillerU_nat _ _).step (Into.rfl' _)
  · unfold bmmTU bmmT; into
  · unfold viewToTensorT; simp only [bind_assoc, pure_bind]; into
  · unfold viewSumT; simp only [bind_assoc, pure_bind]; into
  · unfold bmmViewTU bmmViewT; into
  · unfold viewBmmT; simp only [bind_assoc, pure_bind]; into
  · unfold viewBmmViewT; simp only [bind_assoc, pure_bind]; into
  · unfold mulViewT; simp only [bind_assoc, pure_bind]; into
  · unfold rawBinT; simp only [bind_assoc, pure_bind]; into
  · unfold rawSubT; simp only [bind_assoc, pure_bind]; into
  · unfold rawUnaryT; simp only [bind_assoc, pure_bind]; into
  · unfold leftMulT; simp only [bind_assoc, pure_bind]
    exact (Opnd.evalU_nat _ _).bind fun _ => (TL.leftScalarMulU_nat _ _).step (Into.rfl' _)
  · unfold rightMulT; simp only [bind_assoc, pure_bind]
    exact (Opnd.evalU_nat _ _).bind fun _ => (TL.rightScalarMulU_nat _ _).step (Into.rfl' _)
  · unfold sumTU rawSumT
    refine Into.bind (Into.bind (Into.rfl' _) fun _ => Into.bind (TL.sumU_nat _) fun _ => ?_) fun _ => Into.rfl' _
    exact (newWithFillerU_nat _ _).step (Into.rfl' _)
  · unfold backwardU backward; into

theorem runOpsU_nat (h : Heap T) (ops : List (Op T)) : Into Fail.DebugOnly (runOpsU .debug h ops) (runOps h ops) :=
  Into.foldlM runU_nat _ _

end backward

end RL
