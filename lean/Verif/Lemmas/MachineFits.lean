import Verif.Lemmas.MachineNat
import Verif.Lemmas.WfOps
import Verif.Lemmas.SplitWriter

/-!
# If all numbers fit, success with unbounded numbers carries over to the debug profile
-/

namespace RL

open Spec

/-- If the first computation succeeds, so does the second, with the same result. -/
abbrev Back {α : Type _} (x y : R α) : Prop := Into (fun _ => True) x y

section

variable {α β : Type _}

theorem Back.of {x y : R α} (h : ∀ a, x = .ok a → y = .ok a) : Back x y := ⟨h, fun _ _ => .inl trivial⟩

theorem Back.fails (e : Fail) (y : R α) : Back (.error e) y := Into.error trivial _

theorem Back.bind {x y : R α} {f g : α → R β} (h : Back x y) (hf : ∀ a, x = .ok a → Back (f a) (g a)) : Back (x >>= f) (y >>= g) := by
  refine .of fun b hb => ?_
  rw [R.bind_eq_ok] at hb ⊢
  obtain ⟨a, h1, h2⟩ := hb
  exact ⟨a, h.ok a h1, (hf a h1).ok b h2⟩

/-- A step on the right that is a plain value on the left. -/
theorem Back.step {x : R β} {y : R α} {a : α} {g : α → R β} (h : y = .ok a) (hf : Back x (g a)) : Back x (y >>= g) := by
  rw [h]; exact hf

theorem Back.unwrapR {x y : R α} (h : Back x y) : Back (unwrapR x) (unwrapR y) := by
  cases x with
  | ok a => rw [h.ok a rfl]; exact Into.rfl' _
  | error e => cases e <;> exact Back.fails _ _

/-- With an invariant. -/
theorem Back.foldlM {γ : Type _} {f g : β → γ → R β} (I : β → Prop) {l : List γ} (hI : ∀ s, ∀ a ∈ l, ∀ s', I s → f s a = .ok s' → I s')
    (h : ∀ s, ∀ a ∈ l, I s → Back (f s a) (g s a)) {s : β} (hs : I s) : Back (l.foldlM f s) (l.foldlM g s) := by
  induction l generalizing s with
  | nil => exact Into.rfl' _
  | cons a l ih =>
    rw [List.foldlM_cons, List.foldlM_cons]
    exact (h s a (by simp) hs).bind fun b hb =>
      ih (fun s a ha => hI s a (by simp [ha])) (fun s a ha => h s a (by simp [ha])) (hI s a (by simp) b hs hb)

theorem Back.foldlM' {γ : Type _} {f g : β → γ → R β} {l : List γ} (h : ∀ s, ∀ a ∈ l, Back (f s a) (g s a)) (s : β) :
    Back (l.foldlM f s) (l.foldlM g s) := Back.foldlM (fun _ => True) (fun _ _ _ _ _ _ => trivial) (fun s a ha _ => h s a ha) trivial

end

/-! ## Indices -/

theorem subU_debug (a b : Nat) : subU .debug a b = subR a b := by
  unfold subU subR; rfl

theorem Spec.Fits.lt {s : List Nat} (h : Fits s) {d : Nat} (hd : d ∈ s) : d < 2 ^ 64 := by
  obtain ⟨l1, l2, rfl⟩ := List.append_of_mem hd
  have h1 := one_le_prod_max l1
  have h2 := one_le_prod_max l2
  simp only [Fits, List.map_append, List.map_cons, List.prod_append, List.prod_cons] at h
  have h3 : max 1 d ≤ (l1.map (max 1)).prod * (max 1 d * (l2.map (max 1)).prod) :=
    le_trans (Nat.le_mul_of_pos_right _ h2) (Nat.le_mul_of_pos_left _ h1)
  omega

theorem globalIndexLoopU_back {shapeLen : Nat} {offset : Option (List SliceRange)} (ho : ∀ rs, offset = some rs → ∀ r ∈ rs, r.stop < 2 ^ 64) :
    ∀ (l : List (Nat × Nat)) (n g m : Nat), n + l.length ≤ shapeLen → g < m → m * ((l.map Prod.fst).map (max 1)).prod < 2 ^ 64 →
      Back (globalIndexLoop shapeLen offset l n g m) (globalIndexLoopU .debug shapeLen offset l n g m) := by
  intro l
  induction l with
  | nil => intro n g m _ _ _; exact Into.rfl' _
  | cons x l ih =>
    intro n g m hn hg hm
    obtain ⟨dim, idx⟩ := x
    rw [globalIndexLoopU, globalIndexLoop]
    refine .step (subU_ok (by simp at hn; omega)) (.step (subU_ok (by simp at hn; omega)) ?_)
    simp only [List.map_cons, List.prod_cons] at hm
    have hn' : n + 1 + l.length ≤ shapeLen := by simp at hn; omega
    dsimp only
    split
    · next hd =>
      subst hd
      exact ih _ _ _ hn' hg (by simpa using hm)
    · next hd =>
      have key : ∀ s : Nat, s < dim → Back (globalIndexLoop shapeLen offset l (n + 1) (g + s * m) (m * dim)) (do
          let step ← mulU .debug s m
          let globalIdx ← addU .debug g step
          let multiplier ← mulU .debug m dim
          globalIndexLoopU .debug shapeLen offset l (n + 1) globalIdx multiplier) := by
        intro s hs
        have h1 : m * dim * ((l.map Prod.fst).map (max 1)).prod < 2 ^ 64 := by
          rw [mul_assoc]; rwa [max_eq_right (by omega)] at hm
        have h2 : m * dim < 2 ^ 64 := lt_of_le_of_lt (Nat.le_mul_of_pos_right _ (one_le_prod_max _)) h1
        have h3 : g + s * m < m * dim := by
          calc g + s * m < m + s * m := by omega
            _ = m * (s + 1) := by ring
            _ ≤ m * dim := Nat.mul_le_mul_left _ (by omega)
        exact .step (wrapU_ok (by omega)) (.step (wrapU_ok (by omega)) (.step (wrapU_ok h2) (ih _ _ _ hn' h3 h1)))
      cases offset with
      | none =>
        simp only [pure_bind]
        split
        · exact Into.rfl' _
        · exact key idx (by omega)
      | some rs =>
        simp only [bind_assoc, pure_bind]
        refine Back.bind (Into.rfl' _) fun r hr => ?_
        rw [subU_debug]
        refine Back.bind (Into.rfl' _) fun len hlen => ?_
        have h1 := ho rs rfl r (List.mem_of_getElem? (idxR_eq_ok.1 hr))
        have h2 : len = r.stop - r.start := by
          unfold subR at hlen
          split at hlen
          · cases hlen; rfl
          · cases hlen
        by_cases h3 : len ≤ idx
        · rw [if_pos h3]; exact Back.fails _ _
        · refine .step (wrapU_ok (by omega)) ?_
          rw [if_neg h3, if_neg h3]
          split
          · exact Into.rfl' _
          · exact key _ (by omega)

theorem globalIndexU_back {index shape : List Nat} {offset : Option (List SliceRange)} (hs : Fits shape)
    (ho : ∀ rs, offset = some rs → ∀ r ∈ rs, r.stop < 2 ^ 64) :
    Back (globalIndex index shape offset) (globalIndexU .debug index shape offset) := by
  rw [globalIndexU, globalIndex]
  split
  · exact Into.rfl' _
  · refine globalIndexLoopU_back ho _ _ _ _ (by simp) (by omega) ?_
    rw [one_mul, map_fst_zip_take]
    have h1 : shape.reverse.take index.reverse.length ++ shape.reverse.drop index.reverse.length = shape.reverse := List.take_append_drop _ _
    have h2 : ((shape.reverse).map (max 1)).prod = (shape.map (max 1)).prod := by
      rw [List.map_reverse, List.prod_reverse]
    rw [Fits, ← h2, ← h1, List.map_append, List.prod_append] at hs
    exact lt_of_le_of_lt (Nat.le_mul_of_pos_right _ (one_le_prod_max _)) hs

theorem globalIndexU_back' {index shape : List Nat} (hs : Fits shape) :
    Back (globalIndex index shape none) (globalIndexU .debug index shape none) := globalIndexU_back hs fun _ h => by cases h

theorem incrementIndexU_back {shape : List Nat} (hs : ∀ d ∈ shape, d < 2 ^ 64) (index : List Nat) :
    Back (incrementIndex index shape) (incrementIndexU .debug index shape) := by
  rw [incrementIndexU, incrementIndex]
  generalize index.length = n
  induction n with
  | zero => exact Into.rfl' _
  | succ i ih =>
    rw [incrementLoopU, incrementLoop]
    refine Back.bind (Into.rfl' _) fun v _ => Back.bind (Into.rfl' _) fun d hd => ?_
    rw [subU_debug]
    refine Back.bind (Into.rfl' _) fun last hl => ?_
    have h1 := hs d (List.mem_of_getElem? (idxR_eq_ok.1 hd))
    have h2 : last ≤ d := by
      unfold subR at hl
      split at hl
      · cases hl; omega
      · cases hl
    split
    · exact .step (wrapU_ok (by omega)) (Into.rfl' _)
    · exact ih

theorem nextU_back {it : IndexIter} (hs : ∀ d ∈ it.dimensions, d < 2 ^ 64) : Back it.next (it.nextU .debug) := by
  unfold IndexIter.nextU IndexIter.next
  split
  · exact Into.rfl' _
  · exact (incrementIndexU_back hs _).bind fun _ _ => Into.rfl' _

theorem next_dimensions {it it' : IndexIter} {o : Option (List Nat)} (h : it.next = .ok (o, it')) : it'.dimensions = it.dimensions := by
  unfold IndexIter.next at h
  split at h
  · cases h; rfl
  · rw [R.bind_eq_ok] at h
    obtain ⟨⟨index, more⟩, _, h⟩ := h
    dsimp only at h
    split at h <;> (cases h; rfl)

theorem forIndicesU_back {σ : Type _} {dims : List Nat} {s : σ} {f g : σ → List Nat → R σ} (hd : ∀ d ∈ dims, d < 2 ^ 64) (I : σ → Prop)
    (hI : ∀ s i s', I s → f s i = .ok s' → I s') (h : ∀ s i, I s → Back (f s i) (g s i)) (hs : I s) :
    Back (forIndices dims s f) (forIndicesU .debug dims s g) := by
  have key : ∀ (n : Nat) (it : IndexIter) (s : σ), it.dimensions = dims → I s → Back (iterLoop f n it s) (iterLoopU .debug g n it s) := by
    intro n
    induction n with
    | zero => intro it s _ _; exact Into.rfl' _
    | succ n ih =>
      intro it s hit hs
      unfold iterLoopU iterLoop
      refine (nextU_back (by rwa [hit])).bind fun x hx => ?_
      obtain ⟨o, it'⟩ := x
      cases o with
      | none => exact Into.rfl' _
      | some idx => exact (h s idx hs).bind fun s' hs' => ih _ _ ((next_dimensions hx).trans hit) (hI s idx s' hs hs')
  exact key _ _ _ rfl hs

theorem forIndicesU_back' {σ : Type _} {dims : List Nat} {s : σ} {f g : σ → List Nat → R σ} (hd : ∀ d ∈ dims, d < 2 ^ 64)
    (h : ∀ s i, Back (f s i) (g s i)) : Back (forIndices dims s f) (forIndicesU .debug dims s g) :=
  forIndicesU_back hd (fun _ => True) (fun _ _ _ _ _ => trivial) (fun s i _ => h s i) trivial

/-! ## Tensors and views -/

variable {T : Type}

theorem newU_back {array : List T} {shape : List Nat} (hs : Fits shape) : Raw.newU .debug array shape = Raw.new array shape := by
  rw [Raw.newU, prodU_fits hs, R.bind_ok, Raw.new, foldl_mul_eq, one_mul]

theorem newWithFillerU_back {shape : List Nat} {v : T} (hs : Fits shape) :
    Raw.newWithFillerU .debug shape v = .ok (Raw.newWithFiller shape v) := by
  rw [Raw.newWithFillerU, Raw.newWithFiller]
  split
  · rfl
  · rw [prodU_fits hs, R.bind_ok, foldl_mul_eq, one_mul]; rfl

theorem Raw.getU_back {t : Raw T} (h : Fits t.shape) (index : List Nat) : Back (t.get index) (t.getU .debug index) :=
  (globalIndexU_back' h).bind fun _ _ => Into.rfl' _

theorem Raw.setU_back {t : Raw T} (h : Fits t.shape) (index : List Nat) (v : T) : Back (t.set index v) (t.setU .debug index v) :=
  (globalIndexU_back' h).bind fun _ _ => Into.rfl' _

theorem Raw.atU_back {t : Raw T} (h : Fits t.shape) (index : List Nat) : Back (t.at index) (t.atU .debug index) :=
  (Raw.getU_back h index).unwrapR

theorem viewShapeU_debug (l : List (SliceRange × Nat)) : viewShapeU .debug l = viewShape l := by
  induction l with
  | nil => rfl
  | cons x l ih => rw [viewShapeU, viewShape, ih]; simp only [subU_debug]

theorem View.newU_debug (t : Raw T) (o : List SliceRange) : View.newU .debug t o = View.new t o := by
  rw [View.newU, View.new, viewShapeU_debug]

/-- All numbers of a view fit. -/
structure ViewOk (v : View T) : Prop where
  tensor : Fits v.tensor.shape
  stop : ∀ r ∈ v.offset, r.stop < 2 ^ 64
  shape : Fits v.shape

theorem viewShape_le : ∀ {o : List SliceRange} {s ds : List Nat}, o.length = s.length → viewShape (o.zip s) = .ok ds →
    (ds.map (max 1)).prod ≤ (s.map (max 1)).prod ∧ ∀ r ∈ o, ∃ d ∈ s, r.stop ≤ d := by
  intro o
  induction o with
  | nil =>
    intro s ds _ h
    cases h
    exact ⟨by simpa using one_le_prod_max s, by simp⟩
  | cons r o ih =>
    intro s ds hl h
    cases s with
    | nil => simp at hl
    | cons d s =>
      rw [List.zip_cons_cons, viewShape] at h
      simp only [R.bind_eq_ok, R.pure_eq_ok] at h
      obtain ⟨⟨⟩, h1, e, h2, es, h3, rfl⟩ := h
      rw [assertR_eq_ok, decide_eq_true_eq] at h1
      have h4 : e ≤ r.stop := by
        unfold subR at h2
        split at h2
        · cases h2; omega
        · cases h2
      obtain ⟨h5, h6⟩ := ih (by simpa using hl) h3
      refine ⟨?_, ?_⟩
      · simp only [List.map_cons, List.prod_cons]
        exact Nat.mul_le_mul (by omega) h5
      · intro r' hr'
        rcases List.mem_cons.1 hr' with rfl | hr'
        · exact ⟨d, by simp, h1⟩
        · obtain ⟨d', hd', h7⟩ := h6 r' hr'
          exact ⟨d', by simp [hd'], h7⟩

theorem viewOk_new {t : Raw T} (ht : Fits t.shape) {o : List SliceRange} {v : View T} (h : View.new t o = .ok v) : ViewOk v ∧ v.tensor = t := by
  rw [View.new] at h
  simp only [R.bind_eq_ok, R.pure_eq_ok] at h
  obtain ⟨⟨⟩, h1, s, h2, rfl⟩ := h
  rw [assertR_eq_ok, beq_iff_eq] at h1
  obtain ⟨h3, h4⟩ := viewShape_le h1 h2
  refine ⟨⟨ht, ?_, lt_of_le_of_lt h3 ht⟩, rfl⟩
  intro r hr
  obtain ⟨d, hd, h5⟩ := h4 r hr
  exact lt_of_le_of_lt h5 (ht.lt hd)

theorem View.reshapeU_back {v : View T} (hv : ViewOk v) {s : List Nat} (hs : Fits s) : v.reshapeU .debug s = v.reshape s := by
  rw [View.reshapeU, prodU_fits hv.shape, R.bind_ok, prodU_fits hs, R.bind_ok, View.reshape]

theorem View.getU_back {v : View T} (hv : ViewOk v) (index : List Nat) : Back (v.get index) (v.getU .debug index) :=
  (globalIndexU_back hv.tensor fun rs h => by cases h; exact hv.stop).unwrapR.bind fun _ _ => Into.rfl' _

/-- All numbers of an operand fit. -/
def TLFits : TL T → Prop
  | .raw t => Fits t.shape
  | .view v => ViewOk v

theorem TLFits.shape {x : TL T} (h : TLFits x) : Fits x.shape := by
  cases x with
  | raw t => exact h
  | view v => exact ViewOk.shape h

theorem TLFits.dims {x : TL T} (h : TLFits x) : ∀ d ∈ x.shape, d < 2 ^ 64 := fun _ => h.shape.lt

theorem TL.getU_back {x : TL T} (h : TLFits x) (index : List Nat) : Back (x.get index) (x.getU .debug index) := by
  cases x with
  | raw t => exact Raw.getU_back h index
  | view v => exact View.getU_back h index

theorem forElemsU_back {σ : Type _} {x : TL T} (h : TLFits x) (s : σ) (f : σ → T → R σ) : Back (forElems x s f) (forElemsU .debug x s f) :=
  forIndicesU_back' h.dims fun _ _ => (TL.getU_back h _).unwrapR.bind fun _ _ => Into.rfl' _

theorem TL.toTensorU_back {x : TL T} (h : TLFits x) : Back x.toTensor (x.toTensorU .debug) := by
  cases x with
  | raw t => exact Into.rfl' _
  | view v =>
    refine .step (prodU_fits (ViewOk.shape h)) ((forElemsU_back h _ _).bind fun _ _ => ?_)
    rw [newU_back (ViewOk.shape h)]
    exact Into.rfl' _

theorem TL.sumU_back [Zero T] [Add T] {x : TL T} (h : TLFits x) : Back x.sum (x.sumU .debug) := by
  cases x with
  | raw t => exact Into.rfl' _
  | view v => exact (forElemsU_back h _ _).bind fun _ _ => Into.rfl' _

theorem TL.leftScalarMulU_back [Mul T] {x : TL T} (h : Fits x.shape) (s : T) : x.leftScalarMulU .debug s = .ok (x.leftScalarMul s) := by
  rw [TL.leftScalarMulU, prodU_fits h]; rfl

theorem TL.rightScalarMulU_back [Mul T] {x : TL T} (h : Fits x.shape) (s : T) : x.rightScalarMulU .debug s = .ok (x.rightScalarMul s) := by
  rw [TL.rightScalarMulU, prodU_fits h]; rfl

theorem genericBinopRawU_back [Zero T] {l r : TL T} (hl : TLFits l) (hr : TLFits r) (hs : Fits (maxShape l.shape r.shape)) (op : T → T → T) :
    Back (genericBinopRaw l r op) (genericBinopRawU .debug l r op) := by
  unfold genericBinopRaw genericBinopRawU
  refine Back.bind (Into.rfl' _) fun _ _ => .step (newWithFillerU_back hs) ?_
  refine forIndicesU_back (fun d => hs.lt) (fun t => t.shape = maxShape l.shape r.shape) ?_ ?_ (by rw [Raw.newWithFiller_eq])
  · intro t i t' ht h
    simp only [R.bind_eq_ok] at h
    obtain ⟨_, _, _, _, h⟩ := h
    exact ((Post.unwrapR (set_post _ _ _)) _ h).1.trans ht
  · intro t i ht
    exact (TL.getU_back hl _).unwrapR.bind fun _ _ => (TL.getU_back hr _).unwrapR.bind fun _ _ => (Raw.setU_back (by rwa [ht]) _ _).unwrapR

theorem genericUnaryOpU_back {x : TL T} (h : TLFits x) (op : T → T) : Back (genericUnaryOp x op) (genericUnaryOpU .debug x op) := by
  unfold genericUnaryOp genericUnaryOpU
  refine (TL.toTensorU_back h).bind fun t ht => ?_
  have hts : t.shape = x.shape := by
    cases x with
    | raw t' => cases ht; rfl
    | view v =>
      simp only [TL.toTensor, R.bind_eq_ok] at ht
      obtain ⟨_, _, h1⟩ := ht
      exact (Post.new _ _ _ h1).1 ▸ rfl
  dsimp only
  refine Back.bind (Back.foldlM' (fun s a _ => ?_) _) fun s _ => ?_
  · exact (TL.getU_back h _).unwrapR.bind fun _ _ => (incrementIndexU_back h.dims _).bind fun _ _ => Into.rfl' _
  · rw [newU_back (by rw [hts]; exact h.shape)]; exact Into.rfl' _

theorem genericUnaryOp_shape {x : TL T} {op : T → T} {t : Raw T} (h : genericUnaryOp x op = .ok t) : t.shape = x.shape := by
  simp only [genericUnaryOp, R.bind_eq_ok] at h
  obtain ⟨t', h1, ⟨_, _⟩, _, h2⟩ := h
  have h3 := (Post.new _ _ _ h2).1
  cases x with
  | raw t' => cases h1; exact h3
  | view v =>
    simp only [TL.toTensor, R.bind_eq_ok] at h1
    obtain ⟨_, _, h1⟩ := h1
    have := (Post.new _ _ _ h1).1
    rw [h3, this]; rfl

theorem subRawU_back [Zero T] [Add T] [Neg T] {l r : TL T} (hl : TLFits l) (hr : TLFits r) (hs : Fits (maxShape l.shape r.shape)) :
    Back (subRaw l r) (subRawU .debug l r) := by
  refine (genericUnaryOpU_back hr _).bind fun t ht => ?_
  have hts : t.shape = r.shape := genericUnaryOp_shape ht
  exact genericBinopRawU_back (r := .raw t) hl (show Fits t.shape by rw [hts]; exact hr.shape) (by rw [TL.shape, hts]; exact hs) _

theorem elementWiseMulU_back [Mul T] {l r : TL T} (hl : TLFits l) (hr : TLFits r) : Back (elementWiseMul l r) (elementWiseMulU .debug l r) := by
  unfold elementWiseMul elementWiseMulU
  refine Back.bind (Into.rfl' _) fun _ _ => Back.bind (forIndicesU_back' hl.dims fun _ _ => ?_) fun _ _ => ?_
  · exact (TL.getU_back hl _).unwrapR.bind fun _ _ => (TL.getU_back hr _).unwrapR.bind fun _ _ => Into.rfl' _
  · rw [newU_back hl.shape]; exact Into.rfl' _

theorem mulRawU_back [Mul T] {l : Raw T} {r : TL T} (hl : Fits l.shape) (hr : TLFits r) : Back (mulRaw l r) (mulRawU .debug l r) := by
  unfold mulRaw mulRawU
  split
  · refine Back.bind (Into.rfl' _) fun _ _ => ?_
    rw [TL.leftScalarMulU_back hr.shape]; exact Into.rfl' _
  · split
    · refine Back.bind (TL.getU_back hr _).unwrapR fun _ _ => ?_
      rw [TL.rightScalarMulU_back (x := .raw l) hl]; exact Into.rfl' _
    · exact elementWiseMulU_back (l := .raw l) hl hr

theorem foldlM_rows_eq {α : Type _} {ncol : Nat} {f : α → R (List T)} :
    ∀ (l : List α) (s : List T × Nat), l.length * ncol ≤ s.2 → l.foldlM (fun (acc : List T × Nat) i => do
        assertR (decide (ncol ≤ acc.2))
        let row ← f i
        return (acc.1 ++ row, acc.2 - ncol)) s
      = (do
        let a ← l.foldlM (fun (acc : List T) i => do let row ← f i; return acc ++ row) s.1
        return (a, s.2 - l.length * ncol)) := by
  intro l
  induction l with
  | nil => intro s _; simp only [List.foldlM_nil, List.length_nil, zero_mul, Nat.sub_zero, pure_bind]
  | cons i l ih =>
    intro s hs
    rw [List.length_cons, Nat.succ_mul] at hs
    have h1 : decide (ncol ≤ s.2) = true := by rw [decide_eq_true_eq]; omega
    simp only [List.foldlM_cons, h1, bind_assoc, pure_bind]
    rw [assertR, if_pos rfl, R.bind_ok]
    refine bind_congr fun row => ?_
    have := ih (s.1 ++ row, s.2 - ncol) (by dsimp only; omega)
    dsimp only at this
    rw [this, show s.2 - ncol - l.length * ncol = s.2 - (l.length + 1) * ncol by rw [Nat.succ_mul]; omega, List.length_cons]

theorem foldlM_rows2_eq {α β : Type _} {ncol : Nat} {f : β → α → R (List T)} (l : List α) : ∀ (bs : List β) (s : List T × Nat), bs.length * (l.length * ncol) ≤ s.2 →
      bs.foldlM (fun (acc : List T × Nat) b => l.foldlM (fun (acc : List T × Nat) i => do
        assertR (decide (ncol ≤ acc.2))
        let row ← f b i
        return (acc.1 ++ row, acc.2 - ncol)) acc) s
      = (do
        let a ← bs.foldlM (fun (acc : List T) b => l.foldlM (fun (acc : List T) i => do let row ← f b i; return acc ++ row) acc) s.1
        return (a, s.2 - bs.length * (l.length * ncol))) := by
  intro bs
  induction bs with
  | nil => intro s _; simp only [List.foldlM_nil, List.length_nil, zero_mul, Nat.sub_zero, pure_bind]
  | cons b bs ih =>
    intro s hs
    rw [List.length_cons, Nat.succ_mul] at hs
    rw [List.foldlM_cons, List.foldlM_cons, foldlM_rows_eq l s (by omega)]
    simp only [bind_assoc, pure_bind]
    refine bind_congr fun a => ?_
    have := ih (a, s.2 - l.length * ncol) (by dsimp only; omega)
    dsimp only at this
    rw [this, show s.2 - l.length * ncol - bs.length * (l.length * ncol) = s.2 - (bs.length + 1) * (l.length * ncol) by
      rw [Nat.succ_mul]; omega, List.length_cons]

theorem Back.mapM {α β : Type _} {f g : α → R β} {l : List α} (h : ∀ a ∈ l, Back (f a) (g a)) : Back (l.mapM f) (l.mapM g) := by
  induction l with
  | nil => exact Into.rfl' _
  | cons a l ih =>
    rw [List.mapM_cons, List.mapM_cons]
    exact (h a (by simp)).bind fun _ _ => (ih fun a ha => h a (by simp [ha])).bind fun _ _ => Into.rfl' _

theorem bmmEntryU_back [Zero T] [Add T] [Mul T] {l r : TL T} (hl : TLFits l) (hr : TLFits r) (li ri : List Nat) (n j : Nat) :
    Back (bmmEntry l r li ri n j) (bmmEntryU .debug l r li ri n j) :=
  Back.foldlM' (fun _ _ _ => (TL.getU_back hl _).unwrapR.bind fun _ _ => (TL.getU_back hr _).unwrapR.bind fun _ _ => Into.rfl' _) _

theorem bmmRawU_back [Zero T] [Add T] [Mul T] {l r : TL T} (hl : TLFits l) (hr : TLFits r) (hs : ∀ s, bmmShape l r = .ok s → Fits s) :
    Back (bmmRaw l r) (bmmRawU .debug l r) := by
  unfold bmmRaw bmmRawU
  refine Back.bind (Into.rfl' _) fun _ _ => Back.bind (Into.rfl' _) fun sh hsh => .step (prodU_fits (hs sh hsh)) ?_
  obtain ⟨nb, nrow, ncol, rfl⟩ := bmmShape_three hsh
  refine Back.bind (Into.rfl' _) fun nb' h0 => Back.bind (Into.rfl' _) fun nrow' h1 => Back.bind (Into.rfl' _) fun ncol' h2 => ?_
  cases h0; cases h1; cases h2
  refine Back.bind (Into.rfl' _) fun rows _ => ?_
  rw [foldlM_rows2_eq _ _ _ (by simp)]
  simp only [bind_assoc, pure_bind, List.length_range, show ([nb, nrow, ncol] : List Nat).prod = nb * (nrow * ncol) by simp,
    Nat.sub_self, List.replicate_zero, List.append_nil]
  refine Back.bind (Back.foldlM' (fun _ _ _ => Back.foldlM' (fun _ _ _ => Back.bind (Back.mapM fun _ _ => bmmEntryU_back hl hr _ _ _ _)
    fun _ _ => Into.rfl' _) _) _) fun _ _ => Into.rfl' _

/-! ## Results that fit -/

theorem maxShape_self_of {l r : TL T} {op : T → T → T} [Zero T] {v : Raw T} (e : genericBinopRaw l r op = .ok v) (hv : Fits v.shape) :
    Fits (maxShape l.shape r.shape) := by
  rw [← (genericBinopRaw_post _ _ _ v e).1]; exact hv

theorem genericBinopRawU_ok [Zero T] {l r : TL T} (hl : TLFits l) (hr : TLFits r) {op : T → T → T} {v : Raw T}
    (e : genericBinopRaw l r op = .ok v) (hv : Fits v.shape) : genericBinopRawU .debug l r op = .ok v :=
  (genericBinopRawU_back hl hr (maxShape_self_of e hv) op).ok v e

theorem bmmRaw_shape [Zero T] [Add T] [Mul T] {l r : TL T} {v : Raw T} (e : bmmRaw l r = .ok v) :
    2 ≤ l.shape.length ∧ r.shape.length = 2 ∧ (∃ k, l.shape.getLast? = some k ∧ r.shape[0]? = some k) ∧
    ((∃ a n, l.shape[0]? = some a ∧ r.shape[1]? = some n ∧ l.shape.length = 2 ∧ bmmShape l r = .ok [1, a, n] ∧ v.shape = [a, n]) ∨
    ∃ a b n, l.shape[0]? = some a ∧ l.shape[1]? = some b ∧ r.shape[1]? = some n ∧ l.shape.length ≠ 2 ∧ bmmShape l r = .ok [a, b, n] ∧ v.shape = [a, b, n]) := by
  unfold bmmRaw at e
  simp only [R.bind_eq_ok] at e
  obtain ⟨⟨⟩, hc, sh, hsh, _, _, _, _, _, _, _, _, arr, _, e⟩ := e
  simp only [bmmChecks, R.bind_eq_ok, assertR_eq_ok, decide_eq_true_eq, beq_iff_eq] at hc
  obtain ⟨⟨⟩, h1, ⟨⟩, h2, lk, hlk, rk, hrk, h3⟩ := hc
  simp only [assertR_eq_ok, decide_eq_true_eq, beq_iff_eq] at h1 h2 h3
  subst h3
  rw [idxR_eq_ok] at hlk hrk
  refine ⟨h1, h2, ⟨lk, by rw [List.getLast?_eq_getElem?]; exact hlk, by rw [h2] at hrk; exact hrk⟩, ?_⟩
  have hsh' := hsh
  simp only [bmmShape, R.bind_eq_ok, idxR_eq_ok] at hsh
  obtain ⟨n, hn, a, ha, hsh⟩ := hsh
  split at hsh
  · next hl2 =>
    cases hsh
    rw [if_pos hl2] at e
    cases e
    exact .inl ⟨a, n, ha, hn, hl2, hsh', rfl⟩
  · next hl2 =>
    simp only [R.bind_eq_ok, idxR_eq_ok] at hsh
    obtain ⟨b, hb, hsh⟩ := hsh
    cases hsh
    rw [if_neg hl2] at e
    cases e
    exact .inr ⟨a, b, n, ha, hb, hn, hl2, hsh', rfl⟩

theorem bmmRawU_ok [Zero T] [Add T] [Mul T] {l r : TL T} (hl : TLFits l) (hr : TLFits r) {v : Raw T} (e : bmmRaw l r = .ok v)
    (hv : Fits v.shape) : bmmRawU .debug l r = .ok v := by
  refine (bmmRawU_back hl hr fun s hs => ?_).ok v e
  obtain ⟨-, -, -, ⟨a, n, _, _, _, h1, h2⟩ | ⟨a, b, n, _, _, _, _, h1, h2⟩⟩ := bmmRaw_shape e
  · rw [h1] at hs; cases hs
    rw [h2] at hv
    simpa [Fits] using hv
  · rw [h1] at hs; cases hs
    rwa [h2] at hv

theorem fits_pair {a b : Nat} (ha : a < 2 ^ 64) (hb : b < 2 ^ 64) (hab : a * b < 2 ^ 64) : Fits [a, b] := by
  simp only [Fits, List.map_cons, List.map_nil, List.prod_cons, List.prod_nil, mul_one]
  rcases Nat.eq_zero_or_pos a with rfl | h1
  · simpa using hb
  · rcases Nat.eq_zero_or_pos b with rfl | h2
    · simpa using ha
    · rwa [max_eq_right h1, max_eq_right h2]

theorem Spec.Fits.prod {s : List Nat} (h : Fits s) : s.prod < 2 ^ 64 := lt_of_le_of_lt (prod_le_prod_max s) h

theorem Spec.Fits.sub {s : List Nat} (h : Fits s) {s' : List Nat} (hs : s'.Sublist s) : Fits s' := by
  refine lt_of_le_of_lt ?_ h
  induction hs with
  | slnil => exact le_refl _
  | @cons l1 l2 a _ ih => simp only [List.map_cons, List.prod_cons]; exact le_trans (ih (lt_of_le_of_lt (by
      simp only [List.map_cons, List.prod_cons]; exact Nat.le_mul_of_pos_left _ (by omega)) h)) (Nat.le_mul_of_pos_left _ (by omega))
  | @cons_cons l1 l2 a _ ih => simp only [List.map_cons, List.prod_cons]; exact Nat.mul_le_mul_left _ (ih (lt_of_le_of_lt (by
      simp only [List.map_cons, List.prod_cons]; exact Nat.le_mul_of_pos_left _ (by omega)) h))

/-! ## Gradient functions -/

theorem diagLoopU_back [Add T] [Mul T] {dg g : Raw T} {js bs is : List Nat} (hd : Fits dg.shape) (hj : Fits js) (hb : Fits bs) (hi : Fits is)
    (hg : Fits g.shape) (d0 : Nat) : ∀ (n : Nat) (i o : List Nat) (a : List T),
    Back (diagLoop dg js bs is g d0 n i o a) (diagLoopU .debug dg js bs is g d0 n i o a) := by
  intro n
  induction n with
  | zero => intro i o a; exact Into.rfl' _
  | succ n ih =>
    intro i o a
    unfold diagLoop diagLoopU
    refine (globalIndexU_back' hd).unwrapR.bind fun _ _ => Back.bind (Back.foldlM' (fun _ _ _ => ?_) _) fun _ _ =>
      (incrementIndexU_back (fun _ => hd.lt) _).bind fun x _ => ?_
    · exact (globalIndexU_back' hi).unwrapR.bind fun _ _ => (globalIndexU_back' hj).unwrapR.bind fun _ _ =>
        (Raw.atU_back hg _).bind fun _ _ => (Raw.atU_back hd _).bind fun _ _ => Into.rfl' _
    · dsimp only
      split
      · exact (incrementIndexU_back (fun _ => hb.lt) _).bind fun y _ => Back.bind (Into.rfl' _) fun _ _ => ih _ _ _
      · exact Into.rfl' _

theorem jvpFromDiagonalBroadcastU_back [Zero T] [Add T] [Mul T] {dg g : Raw T} {js bs is : List Nat} (hd : Fits dg.shape) (hj : Fits js)
    (hb : Fits bs) (hi : Fits is) (hg : Fits g.shape) :
    Back (jvpFromDiagonalBroadcast dg (some js) bs is g) (jvpFromDiagonalBroadcastU .debug dg js bs is g) := by
  unfold jvpFromDiagonalBroadcast jvpFromDiagonalBroadcastU
  have hda : ∀ c : Bool, Back (assertR c) (debugAssertR .debug c) := by
    intro c; cases c
    · exact Back.fails _ _
    · exact Into.rfl' _
  have key : ∀ dim0 : Nat, Back (do
      let s0 ← idxR js 0
      assertR (dim0 == s0)
      let s1 ← idxR js 1
      let array ← diagLoop dg js bs is g dim0
        (iterFuel dg.shape) (List.replicate dg.shape.length 0)
        (List.replicate bs.length 0) (List.replicate (s0 * s1) 0)
      Raw.new array js) (do
      let s0 ← idxR js 0
      assertR (dim0 == s0)
      let s1 ← idxR js 1
      let len ← mulU .debug s0 s1
      let array ← diagLoopU .debug dg js bs is g dim0
        (iterFuelU .debug dg.shape) (List.replicate dg.shape.length 0)
        (List.replicate bs.length 0) (List.replicate len 0)
      Raw.newU .debug array js) := by
    intro dim0
    refine Back.bind (Into.rfl' _) fun s0 h0 => Back.bind (Into.rfl' _) fun _ _ => Back.bind (Into.rfl' _) fun s1 h1 => ?_
    refine .step (a := s0 * s1) (wrapU_ok ?_) (Back.bind (diagLoopU_back hd hj hb hi hg _ _ _ _ _) fun _ _ => ?_)
    · rw [idxR_eq_ok] at h0 h1
      obtain ⟨a, b, rest, rfl⟩ : ∃ a b rest, js = a :: b :: rest := by
        match js, h1 with
        | a :: b :: rest, _ => exact ⟨a, b, rest, rfl⟩
      simp at h0 h1
      subst h0; subst h1
      have := (hj.sub (s' := [a, b]) (by simp)).prod
      simpa using this
    · rw [newU_back hj]; exact Into.rfl' _
  refine (hda _).bind fun _ _ => ?_
  dsimp only
  split
  · exact Back.bind (Into.rfl' _) fun _ _ => key _
  · exact Back.bind (Into.rfl' _) fun _ _ => key _

theorem genericBinopJvpU_back [Zero T] [Add T] [Mul T] {l r g : Raw T} (hl : Fits l.shape) (hr : Fits r.shape) (hg : Fits g.shape)
    (hs : Fits (maxShape l.shape r.shape)) (f : T → T → T)
    (hd : ∀ d, gradDim0 g = .ok d → Fits [d, l.array.length] ∧ Fits [d, r.array.length]) :
    Back (genericBinopJvp l r g f) (genericBinopJvpU .debug l r g f) := by
  unfold genericBinopJvp genericBinopJvpU
  dsimp only
  refine .step (prodU_fits hs) ?_
  have key : Back (do
      let dim0 ← gradDim0 g
      let array ← forIndices (maxShape l.shape r.shape) [] (fun acc idx => do
        let x ← unwrapR (l.get idx)
        let y ← unwrapR (r.get idx)
        return acc ++ [f x y])
      let diag ← Raw.new array [1, (maxShape l.shape r.shape).prod]
      let leftJvp ← jvpFromDiagonalBroadcast diag (some [dim0, l.array.length]) (maxShape l.shape r.shape) l.shape g
      let rightJvp ← jvpFromDiagonalBroadcast diag (some [dim0, r.array.length]) (maxShape l.shape r.shape) r.shape g
      return [leftJvp, rightJvp] : R (List (Raw T))) (do
      let dim0 ← gradDim0 g
      let array ← forIndicesU .debug (maxShape l.shape r.shape) [] (fun acc idx => do
        let x ← unwrapR (l.getU .debug idx)
        let y ← unwrapR (r.getU .debug idx)
        return acc ++ [f x y])
      let diag ← Raw.newU .debug array [1, (maxShape l.shape r.shape).prod]
      debugAssertR .debug (diag.array.length == (maxShape l.shape r.shape).prod)
      let leftJvp ← jvpFromDiagonalBroadcastU .debug diag [dim0, l.array.length] (maxShape l.shape r.shape) l.shape g
      let rightJvp ← jvpFromDiagonalBroadcastU .debug diag [dim0, r.array.length] (maxShape l.shape r.shape) r.shape g
      return [leftJvp, rightJvp] : R (List (Raw T))) := by
    refine Back.bind (Into.rfl' _) fun d hd0 => Back.bind (forIndicesU_back' (fun _ => hs.lt) fun _ _ =>
      (Raw.getU_back hl _).unwrapR.bind fun _ _ => (Raw.getU_back hr _).unwrapR.bind fun _ _ => Into.rfl' _) fun arr _ => ?_
    have hp : Fits [1, (maxShape l.shape r.shape).prod] := fits_pair (by norm_num) hs.prod (by rw [one_mul]; exact hs.prod)
    rw [newU_back hp]
    refine Back.bind (Into.rfl' _) fun dg hdg => ?_
    obtain ⟨h1, h2⟩ := Post.new _ _ _ hdg
    have h3 : (dg.array.length == (maxShape l.shape r.shape).prod) = true := by
      rw [beq_iff_eq]
      have : dg.array.length = dg.shape.prod := h2
      rw [this, h1]; simp
    refine .step (a := ()) (by rw [h3]; rfl) ?_
    exact (jvpFromDiagonalBroadcastU_back (by rw [h1]; exact hp) (hd d hd0).1 hs hl hg).bind fun _ _ =>
      (jvpFromDiagonalBroadcastU_back (by rw [h1]; exact hp) (hd d hd0).2 hs hr hg).bind fun _ _ => Into.rfl' _
  split
  · exact Back.bind (Into.rfl' _) fun _ _ => Back.bind (Into.rfl' _) fun _ _ => key
  · exact key

theorem jvpFromDiagonalBroadcast_post [Zero T] [Add T] [Mul T] (dg g : Raw T) (js bs is : List Nat) :
    Post (fun t => t.shape = js ∧ WF t) (jvpFromDiagonalBroadcast dg (some js) bs is g) := by
  unfold jvpFromDiagonalBroadcast
  refine Post.bind fun _ _ => ?_
  dsimp only
  split
  · exact Post.bind fun _ _ => Post.bind fun _ _ => Post.bind fun _ _ => Post.bind fun _ _ => Post.bind fun _ _ => Post.new _ _
  · exact Post.bind fun _ _ => Post.bind fun _ _ => Post.bind fun _ _ => Post.bind fun _ _ => Post.bind fun _ _ => Post.new _ _

theorem genericBinopJvp_post [Zero T] [Add T] [Mul T] (l r g : Raw T) (f : T → T → T) :
    Post (fun outs => ∃ d x y, gradDim0 g = .ok d ∧ outs = [x, y] ∧ x.shape = [d, l.array.length] ∧ y.shape = [d, r.array.length] ∧ WF x ∧ WF y)
      (genericBinopJvp l r g f) := by
  have key : Post (fun outs => ∃ d x y, gradDim0 g = .ok d ∧ outs = [x, y] ∧ x.shape = [d, l.array.length] ∧
      y.shape = [d, r.array.length] ∧ WF x ∧ WF y) (do
      let dim0 ← gradDim0 g
      let array ← forIndices (maxShape l.shape r.shape) [] (fun acc idx => do
        let x ← unwrapR (l.get idx)
        let y ← unwrapR (r.get idx)
        return acc ++ [f x y])
      let diag ← Raw.new array [1, (maxShape l.shape r.shape).prod]
      let leftJvp ← jvpFromDiagonalBroadcast diag (some [dim0, l.array.length]) (maxShape l.shape r.shape) l.shape g
      let rightJvp ← jvpFromDiagonalBroadcast diag (some [dim0, r.array.length]) (maxShape l.shape r.shape) r.shape g
      return [leftJvp, rightJvp] : R (List (Raw T))) :=
    Post.bind fun d hd => Post.bind fun _ _ => Post.bind fun _ _ => Post.bind fun x hx => Post.bind fun y hy => Post.pure
      ⟨d, x, y, hd, rfl, (jvpFromDiagonalBroadcast_post _ _ _ _ _ x hx).1, (jvpFromDiagonalBroadcast_post _ _ _ _ _ y hy).1,
        (jvpFromDiagonalBroadcast_post _ _ _ _ _ x hx).2, (jvpFromDiagonalBroadcast_post _ _ _ _ _ y hy).2⟩
  unfold genericBinopJvp
  dsimp only
  split
  · exact Post.bind fun _ _ => Post.bind fun _ _ => key
  · exact key

theorem genericUnaryJvpU_back [Zero T] [Add T] [Mul T] {t g : Raw T} (ht : Fits t.shape) (hg : Fits g.shape) (f : T → T)
    (hn : t.array.length < 2 ^ 64) (hd : ∀ d, gradDim0 g = .ok d → Fits [d, t.array.length]) :
    Back (genericUnaryJvp t g f) (genericUnaryJvpU .debug t g f) := by
  unfold genericUnaryJvp genericUnaryJvpU
  dsimp only
  refine Back.bind (Into.rfl' _) fun d hd0 => Back.bind (forIndicesU_back' (fun _ => ht.lt) fun _ _ =>
      (Raw.getU_back ht _).unwrapR.bind fun _ _ => Into.rfl' _) fun arr _ => ?_
  have hp : Fits [1, t.array.length] := fits_pair (by norm_num) hn (by rw [one_mul]; exact hn)
  rw [newU_back hp]
  refine Back.bind (Into.rfl' _) fun dg hdg => ?_
  obtain ⟨h1, h2⟩ := Post.new _ _ _ hdg
  exact (jvpFromDiagonalBroadcastU_back (by rw [h1]; exact hp) (hd d hd0) ht ht hg).bind fun _ _ => Into.rfl' _

theorem genericUnaryJvp_post [Zero T] [Add T] [Mul T] (t g : Raw T) (f : T → T) :
    Post (fun outs => ∃ d x, gradDim0 g = .ok d ∧ outs = [x] ∧ x.shape = [d, t.array.length] ∧ WF x) (genericUnaryJvp t g f) :=
  Post.bind fun d hd => Post.bind fun _ _ => Post.bind fun _ _ => Post.bind fun x hx => Post.pure
      ⟨d, x, hd, rfl, (jvpFromDiagonalBroadcast_post _ _ _ _ _ x hx).1, (jvpFromDiagonalBroadcast_post _ _ _ _ _ x hx).2⟩

theorem gradDim0_lt {g : Raw T} (hg : Fits g.shape) {d : Nat} (h : gradDim0 g = .ok d) : d < 2 ^ 64 := by
  unfold gradDim0 at h
  split at h
  · cases h; norm_num
  · exact hg.lt (List.mem_of_getElem? (idxR_eq_ok.1 h))

/-! ### `tanh`, `sum`, `dot` -/

theorem oneElemU_ok {t : Raw T} (h : Fits t.shape) : oneElemU .debug t = .ok (t.isScalar || t.shape.prod == 1) := by
  unfold oneElemU
  split
  · next h1 => rw [h1]; rfl
  · next h1 => rw [prodU_fits h, Bool.eq_false_iff.2 h1]; rfl

theorem jvpFromFullJacobiansU_back [Zero T] [Add T] [Mul T] {l r : Raw T} (hl : Fits l.shape) (hr : Fits r.shape)
    (hb : (l.isScalar || l.shape.prod == 1) = false → Back (bmmRaw (.raw l) (.raw r)) (bmmRawU .debug (.raw l) (.raw r))) :
    Back (jvpFromFullJacobians l r) (jvpFromFullJacobiansU .debug l r) := by
  unfold jvpFromFullJacobians jvpFromFullJacobiansU
  rw [oneElemU_ok hr, oneElemU_ok hl, Bool.or_assoc]
  have hm := mulRawU_back (l := l) (r := .raw r) hl hr
  cases h1 : (r.isScalar || r.shape.prod == 1)
  · cases h2 : (l.isScalar || l.shape.prod == 1)
    · exact hb h2
    · exact Back.bind (Into.rfl' _) fun _ _ => hm
  · exact Back.bind (Into.rfl' _) fun _ _ => hm

theorem mulRaw_shape [Mul T] {l v : Raw T} {r : TL T} (e : mulRaw l r = .ok v) : v.shape = l.shape ∨ v.shape = r.shape := by
  unfold mulRaw at e
  split at e
  · rw [R.bind_eq_ok] at e
    obtain ⟨_, _, e⟩ := e
    cases e; exact .inr rfl
  · split at e
    · rw [R.bind_eq_ok] at e
      obtain ⟨_, _, e⟩ := e
      cases e; exact .inl rfl
    · simp only [elementWiseMul, R.bind_eq_ok] at e
      obtain ⟨_, _, _, _, e⟩ := e
      exact .inl (Post.new _ _ _ e).1

/-- The product of a gradient with a square matrix fits if the gradient does. -/
theorem bmmShape_square {l r : TL T} {n : Nat} (hl : Fits l.shape) (hr : r.shape = [n, n]) (hk : l.shape.getLast? = some n) {s : List Nat}
    (hs : bmmShape l r = .ok s) : Fits s := by
  simp only [bmmShape, R.bind_eq_ok, idxR_eq_ok, hr] at hs
  obtain ⟨m, hm, a, ha, hs⟩ := hs
  simp at hm
  subst hm
  split at hs
  · next h2 =>
    cases hs
    obtain ⟨x, y, h3⟩ : ∃ x y, l.shape = [x, y] := by
      match l.shape, h2 with
      | [x, y], _ => exact ⟨x, y, rfl⟩
    rw [h3] at hl hk ha
    simp at hk ha
    subst hk; subst ha
    simpa [Fits] using hl
  · next h2 =>
    simp only [R.bind_eq_ok, idxR_eq_ok] at hs
    obtain ⟨b, hb, hs⟩ := hs
    cases hs
    refine hl.sub ?_
    match h3 : l.shape with
    | [] => rw [h3] at ha; cases ha
    | [x] => rw [h3] at hb; cases hb
    | [x, y] => rw [h3] at h2; exact absurd rfl h2
    | x :: y :: z :: rest =>
      rw [h3] at ha hb hk
      simp at ha hb
      subst ha; subst hb
      have : n ∈ z :: rest := by
        rw [List.getLast?_cons_cons, List.getLast?_cons_cons] at hk
        exact List.mem_of_getLast? hk
      exact ((List.singleton_sublist.2 this).cons_cons _).cons_cons _

theorem tanhJacobian_post [Zero T] [One T] [Sub T] [RealFn T] (t : Raw T) :
    Post (fun j => j.shape = [t.shape.prod, t.shape.prod] ∧ WF j) (tanhJacobian t) := by
  unfold tanhJacobian
  exact Post.bind fun _ _ => Post.new _ _

theorem fits_square {n : Nat} (h : n < 2 ^ 32) : Fits [n, n] := by
  have h1 : n < 2 ^ 64 := lt_trans h (by decide)
  refine fits_pair h1 h1 ?_
  calc n * n ≤ n * 2 ^ 32 := Nat.mul_le_mul_left _ h.le
    _ < 2 ^ 32 * 2 ^ 32 := Nat.mul_lt_mul_of_pos_right h (by norm_num)
    _ = 2 ^ 64 := by norm_num

theorem tanhJacobianU_back [Zero T] [One T] [Sub T] [RealFn T] {t : Raw T} (ht : Fits t.shape) (h : t.shape.prod < 2 ^ 32) :
    Back (tanhJacobian t) (tanhJacobianU .debug t) := by
  unfold tanhJacobian tanhJacobianU
  have h1 := (fits_square h).prod
  refine .step (prodU_fits ht) (.step (a := t.shape.prod * t.shape.prod) (wrapU_ok (by simpa using h1)) (Back.bind (Into.rfl' _) fun _ _ => ?_))
  rw [newU_back (fits_square h)]; exact Into.rfl' _

theorem tanhJvpU_back [Zero T] [One T] [Add T] [Mul T] [Sub T] [RealFn T] {t g : Raw T} (ht : Fits t.shape) (h : t.shape.prod < 2 ^ 32)
    (hg : Fits g.shape) : Back (tanhJvp [t] [g]) (tanhJvpU .debug [t] [g]) := by
  unfold tanhJvp tanhJvpU
  refine Back.bind (Into.rfl' _) fun _ _ => Back.bind (Into.rfl' _) fun _ _ => Back.bind (Into.rfl' _) fun t' ht' => ?_
  cases ht'
  refine Back.bind (tanhJacobianU_back ht h) fun j hj => Back.bind (Into.rfl' _) fun g' hg' => ?_
  cases hg'
  have hjs := (tanhJacobian_post _ j hj).1
  refine Back.bind (jvpFromFullJacobiansU_back hg (by rw [hjs]; exact fits_square h) fun _ => .of fun v hv => ?_) fun _ _ => Into.rfl' _
  refine (bmmRawU_back (l := .raw g) (r := .raw j) hg (show Fits j.shape by rw [hjs]; exact fits_square h) fun s hs => ?_).ok v hv
  obtain ⟨-, -, ⟨k, h1, h2⟩, -⟩ := bmmRaw_shape hv
  refine bmmShape_square (l := .raw g) (r := .raw j) hg hjs ?_ hs
  rw [h1, ← h2]; show j.shape[0]? = _; rw [hjs]; rfl

theorem jvpFromFullJacobians_wf [Zero T] [Add T] [Mul T] {l r v : Raw T} (hl : WF l) (hr : WF r)
    (e : jvpFromFullJacobians l r = .ok v) : WF v ∧ ((v.shape = l.shape ∨ v.shape = r.shape) ∨
      bmmRaw (.raw l) (.raw r) = .ok v ∧ (l.isScalar || l.shape.prod == 1) = false) := by
  unfold jvpFromFullJacobians at e
  split at e
  · simp only [R.bind_eq_ok] at e
    obtain ⟨_, _, e⟩ := e
    exact ⟨mulRaw_post hl (fun t ht => by cases ht; exact hr) (fun v hv => by cases hv) v e, .inl (mulRaw_shape e)⟩
  · next h =>
    refine ⟨bmmRaw_post _ _ v e, .inr ⟨e, ?_⟩⟩
    rw [Bool.or_assoc] at h
    simp only [Bool.or_eq_true, not_or, Bool.not_eq_true] at h
    simp [h.2]

theorem tanhJvp_fits [Zero T] [One T] [Add T] [Mul T] [Sub T] [RealFn T] {t g : Raw T} (h : t.shape.prod < 2 ^ 32)
    (hg : Fits g.shape) (hgw : WF g) {outs : List (Raw T)} (e : tanhJvp [t] [g] = .ok outs) : ∀ o ∈ outs, Fits o.shape ∧ WF o := by
  simp only [tanhJvp, R.bind_eq_ok, R.pure_eq_ok] at e
  obtain ⟨_, _, _, _, t', ht', j, hj, g', hg', v, hv, rfl⟩ := e
  cases ht'; cases hg'
  obtain ⟨hjs, hjw⟩ := tanhJacobian_post _ j hj
  obtain ⟨h1, h2⟩ := jvpFromFullJacobians_wf hgw hjw hv
  intro o ho
  simp at ho
  subst ho
  refine ⟨?_, h1⟩
  rcases h2 with (h2 | h2) | ⟨h2, -⟩
  · rw [h2]; exact hg
  · rw [h2, hjs]; exact fits_square h
  · obtain ⟨-, -, ⟨k, h3, h4⟩, h5⟩ := bmmRaw_shape h2
    have h6 : ∀ s, bmmShape (.raw g) (.raw j) = .ok s → Fits s := fun s hs => by
      refine bmmShape_square (l := .raw g) (r := .raw j) hg hjs ?_ hs
      rw [h3, ← h4]; show j.shape[0]? = _; rw [hjs]; rfl
    obtain ⟨a, n, _, _, _, h7, h8⟩ | ⟨a, b, n, _, _, _, _, h7, h8⟩ := h5
    · rw [h8]; simpa [Fits] using h6 _ h7
    · rw [h8]; exact h6 _ h7

theorem dotJvpU_back [Zero T] [Add T] [Mul T] {a b g : Raw T} (ha : Fits a.shape) (hb : Fits b.shape) (hg : Fits g.shape)
    (h1 : g.shape.prod = 1) : Back (dotJvp [a, b] [g]) (dotJvpU .debug [a, b] [g]) := by
  have key : ∀ {r : Raw T}, Fits r.shape → Back (jvpFromFullJacobians g r) (jvpFromFullJacobiansU .debug g r) := fun hr =>
    jvpFromFullJacobiansU_back hg hr fun h => by rw [h1] at h; simp at h
  unfold dotJvp dotJvpU
  refine Back.bind (Into.rfl' _) fun _ _ => Back.bind (Into.rfl' _) fun _ h2 => Back.bind (Into.rfl' _) fun _ h3 =>
    Back.bind (Into.rfl' _) fun _ h4 => ?_
  cases h2; cases h3; cases h4
  exact Back.bind (key hb) fun _ _ => Back.bind (key ha) fun _ _ => Into.rfl' _

theorem dotJvp_fits [Zero T] [Add T] [Mul T] {a b g : Raw T} (ha : Fits a.shape ∧ WF a) (hb : Fits b.shape ∧ WF b) (hg : Fits g.shape ∧ WF g)
    (h1 : g.shape.prod = 1) {outs : List (Raw T)} (e : dotJvp [a, b] [g] = .ok outs) : ∀ o ∈ outs, Fits o.shape ∧ WF o := by
  simp only [dotJvp, R.bind_eq_ok, R.pure_eq_ok] at e
  obtain ⟨_, _, _, h2, _, h3, _, h4, v, hv, w, hw, rfl⟩ := e
  cases h2; cases h3; cases h4
  have key : ∀ {r v : Raw T}, Fits r.shape ∧ WF r → jvpFromFullJacobians g r = .ok v → Fits v.shape ∧ WF v := by
    intro r v hr hv
    obtain ⟨h5, h6⟩ := jvpFromFullJacobians_wf hg.2 hr.2 hv
    refine ⟨?_, h5⟩
    rcases h6 with (h6 | h6) | ⟨-, h6⟩
    · rw [h6]; exact hg.1
    · rw [h6]; exact hr.1
    · rw [h1] at h6; simp at h6
  intro o ho
  simp at ho
  rcases ho with rfl | rfl
  · exact key hb hv
  · exact key ha hw

theorem onesJvpU_back [One T] {t g : Raw T} (ht : Fits t.shape) (hg : Fits g.shape) (h : g.shape.prod * t.shape.prod < 2 ^ 64) :
    Back (onesJvp [t] [g]) (onesJvpU .debug [t] [g]) := by
  unfold onesJvp onesJvpU
  refine Back.bind (Into.rfl' _) fun _ _ => Back.bind (Into.rfl' _) fun _ _ => Back.bind (Into.rfl' _) fun t' h1 => ?_
  cases h1
  refine .step (prodU_fits ht) (Back.bind (Into.rfl' _) fun g' h1 => ?_)
  cases h1
  exact .step (prodU_fits hg) (.step (newWithFillerU_back (fits_pair hg.prod ht.prod h)) (Into.rfl' _))

/-! ### `bmm` -/

theorem bmmJvpShapesU_back {a b jac : Raw T} (h : ∀ a0 a1 b0 b1, a.shape[0]? = some a0 → a.shape[1]? = some a1 → b.shape[0]? = some b0 →
    b.shape[1]? = some b1 → a0 * b1 < 2 ^ 64 ∧ a0 * a1 < 2 ^ 64 ∧ b0 * b1 < 2 ^ 64) :
    Back (bmmJvpShapes a b jac) (bmmJvpShapesU .debug a b jac) := by
  unfold bmmJvpShapes bmmJvpShapesU
  refine Back.bind (Into.rfl' _) fun a1 h1 => Back.bind (Into.rfl' _) fun b0 h2 => Back.bind (Into.rfl' _) fun _ _ =>
    Back.bind (Into.rfl' _) fun a0 h3 => Back.bind (Into.rfl' _) fun b1 h4 => ?_
  rw [idxR_eq_ok] at h1 h2 h3 h4
  obtain ⟨h5, h6, h7⟩ := h a0 a1 b0 b1 h3 h1 h2 h4
  exact .step (wrapU_ok h5) (.step (wrapU_ok h6) (Back.bind (Into.rfl' _) fun _ _ => .step (wrapU_ok h7) (Into.rfl' _)))

theorem bmmJvpTaskU_back [Mul T] {a b jac : Raw T} {sh : BmmJvpShapes} (ha : Fits a.shape) (hb : Fits b.shape) (hj : Fits jac.shape)
    (h1 : Fits sh.bmmOutput) (h2 : Fits sh.leftOutput) (h3 : Fits sh.rightOutput) (i k j : Nat) :
    Back (bmmJvpTask a b jac sh i k j) (bmmJvpTaskU .debug a b jac sh i k j) := by
  unfold bmmJvpTask bmmJvpTaskU
  refine (globalIndexU_back' h1).unwrapR.bind fun _ _ => (globalIndexU_back' ha).unwrapR.bind fun _ _ =>
    (globalIndexU_back' hb).unwrapR.bind fun _ _ => Back.bind (Into.rfl' _) fun _ _ => Back.bind (Into.rfl' _) fun _ _ =>
    Back.bind (Into.rfl' _) fun _ _ => Back.bind (Into.rfl' _) fun _ _ => Back.bind (Into.rfl' _) fun _ _ =>
    Back.bind (Into.rfl' _) fun _ _ => Back.bind (Into.rfl' _) fun _ _ => Back.foldlM' (fun _ _ _ => ?_) _
  exact (globalIndexU_back' h2).unwrapR.bind fun _ _ => (Raw.atU_back hj _).bind fun _ _ => (Raw.atU_back hb _).bind fun _ _ =>
    (globalIndexU_back' h3).unwrapR.bind fun _ _ => (Raw.atU_back ha _).bind fun _ _ => Into.rfl' _

theorem segmentWriteU_back [Add T] {arr : List T} (h : arr.length < 2 ^ 64) (s i : Nat) (v : T) :
    Back (segmentWrite arr s i v) (segmentWriteU .debug arr s i v) := by
  unfold segmentWrite segmentWriteU
  refine Back.bind (Into.rfl' _) fun x hx => ?_
  rw [idxR_eq_ok] at hx
  have h1 : s < (rchunks arr.length).length := getElem?_lt hx
  rw [rchunks_length_iff] at h1
  refine .step (a := s * segWidth) (wrapU_ok ?_) ?_
  · have : segWidth = 32 := rfl
    rw [this]; omega
  · rw [subU_debug]; exact Into.rfl' _

theorem deliverU_back [Add T] {p : List T × List T} (h1 : p.1.length < 2 ^ 64) (h2 : p.2.length < 2 ^ 64) (m : Msg T) :
    Back (deliver p m) (deliverU .debug p m) := by
  unfold deliver deliverU
  split
  · exact Back.bind (Into.rfl' _) fun _ _ => (segmentWriteU_back h2 _ _ _).bind fun _ _ => Into.rfl' _
  · exact Back.bind (Into.rfl' _) fun _ _ => (segmentWriteU_back h1 _ _ _).bind fun _ _ => Into.rfl' _

theorem deliver_lengths [Add T] {p q : List T × List T} {m : Msg T} (h : deliver p m = .ok q) :
    q.1.length = p.1.length ∧ q.2.length = p.2.length := by
  unfold deliver at h
  split at h
  · simp only [R.bind_eq_ok, R.pure_eq_ok] at h
    obtain ⟨_, _, _, h1, rfl⟩ := h
    exact ⟨rfl, SplitWriter.segmentWrite_length h1⟩
  · simp only [R.bind_eq_ok, R.pure_eq_ok] at h
    obtain ⟨_, _, _, h1, rfl⟩ := h
    exact ⟨SplitWriter.segmentWrite_length h1, rfl⟩

theorem bmmJvpU_back [Zero T] [Add T] [Mul T] {a b jac : Raw T} (ha : Fits a.shape) (hb : Fits b.shape) (hj : Fits jac.shape)
    (h1 : ∀ sh, bmmJvpShapes a b jac = .ok sh → Fits sh.bmmOutput ∧ Fits sh.leftOutput ∧ Fits sh.rightOutput) :
    Back (bmmJvp [a, b] [jac]) (bmmJvpU .debug [a, b] [jac]) := by
  unfold bmmJvp bmmJvpU
  refine Back.bind (Into.rfl' _) fun _ _ => Back.bind (Into.rfl' _) fun _ e1 => Back.bind (Into.rfl' _) fun _ e2 =>
    Back.bind (Into.rfl' _) fun _ e3 => ?_
  cases e1; cases e2; cases e3
  refine Back.bind (.of fun sh hsh => ?_) fun sh hsh => ?_
  · obtain ⟨h2, h3, h4⟩ := h1 sh hsh
    refine (bmmJvpShapesU_back fun a0 a1 b0 b1 ha0 ha1 hb0 hb1 => ?_).ok sh hsh
    simp only [bmmJvpShapes, R.bind_eq_ok, R.pure_eq_ok, idxR_eq_ok] at hsh
    obtain ⟨_, e1, _, e2, _, _, _, e3, _, e4, j0, e5, rfl⟩ := hsh
    rw [ha1] at e1; rw [hb0] at e2; rw [ha0] at e3; rw [hb1] at e4
    cases e1; cases e2; cases e3; cases e4
    refine ⟨by simpa using h2.prod, ?_, ?_⟩
    · exact h3.lt (by simp)
    · exact h4.lt (by simp)
  · obtain ⟨h2, h3, h4⟩ := h1 sh hsh
    refine .step (prodU_fits h3) (.step (prodU_fits h4) ?_)
    rw [foldl_mul_eq, foldl_mul_eq, one_mul, one_mul]
    refine Back.bind (Back.bind (Into.rfl' _) fun _ _ => Back.bind (Into.rfl' _) fun _ _ => Back.bind (Into.rfl' _) fun _ _ =>
      Back.foldlM' (fun _ _ _ => Back.foldlM' (fun _ _ _ => Back.foldlM' (fun _ _ _ => (bmmJvpTaskU_back ha hb hj h2 h3 h4 _ _ _).bind
        fun _ _ => Into.rfl' _) _) _) _) fun tasks _ => ?_
    refine Back.bind (Back.foldlM (fun p => p.1.length < 2 ^ 64 ∧ p.2.length < 2 ^ 64) ?_ ?_ ?_) fun p _ => ?_
    · intro s m _ s' hs e
      obtain ⟨e1, e2⟩ := deliver_lengths e
      rwa [e1, e2]
    · intro s m _ hs
      exact deliverU_back hs.1 hs.2 m
    · simpa using ⟨h3.prod, h4.prod⟩
    · dsimp only; rw [newU_back h3, newU_back h4]; exact Into.rfl' _

theorem bmmJvp_post [Zero T] [Add T] [Mul T] (a b jac : Raw T) : Post (fun outs => ∃ sh x y, bmmJvpShapes a b jac = .ok sh ∧ outs = [x, y] ∧
    x.shape = sh.leftOutput ∧ y.shape = sh.rightOutput ∧ WF x ∧ WF y) (bmmJvp [a, b] [jac]) := by
  unfold bmmJvp
  refine Post.bind fun _ _ => Post.bind fun _ e1 => Post.bind fun _ e2 => Post.bind fun _ e3 => ?_
  cases e1; cases e2; cases e3
  exact Post.bind fun sh hsh => Post.bind fun _ _ => Post.bind fun _ _ => Post.bind fun x hx => Post.bind fun y hy => Post.pure
    ⟨sh, x, y, hsh, rfl, (Post.new _ _ x hx).1, (Post.new _ _ y hy).1, (Post.new _ _ x hx).2, (Post.new _ _ y hy).2⟩

section

variable [Zero T] [One T] [Add T] [Mul T] [Sub T] [Neg T] [LT T] [DecidableLT T] [LE T] [DecidableLE T] [RealFn T]

/-- A tensor whose data has the length its shape says and whose numbers fit. -/
structure RawFits (t : Raw T) : Prop where
  fits : Fits t.shape
  wf : WF t

theorem RawFits.length {t : Raw T} (h : RawFits t) : t.array.length < 2 ^ 64 := by
  rw [show t.array.length = t.shape.prod from h.wf]; exact h.fits.prod

theorem dim_fits {g t o : Raw T} (hg : Fits g.shape) (ht : t.array.length < 2 ^ 64) {d : Nat} (hd : gradDim0 g = .ok d)
    (h1 : o.shape = [d, t.array.length]) (h2 : WF o) (h3 : o.array.length = t.array.length) : Fits [d, t.array.length] := by
  refine fits_pair (gradDim0_lt hg hd) ht ?_
  have : o.array.length = o.shape.prod := h2
  rw [h1] at this
  simp only [List.prod_cons, List.prod_nil, mul_one] at this
  omega

theorem binopJvp_ok {a b g v : Raw T} {outs : List (Raw T)} {op f : T → T → T} (hf : genericBinopRaw (.raw a) (.raw b) op = .ok v) (hv : Fits v.shape)
    (ha : RawFits a) (hb : RawFits b) (hg : RawFits g) (e : genericBinopJvp a b g f = .ok outs)
    (hl : List.Forall₂ (fun o t : Raw T => o.array.length = t.array.length) outs [a, b]) :
    genericBinopJvpU .debug a b g f = .ok outs ∧ ∀ o ∈ outs, RawFits o := by
  obtain ⟨d, x, y, hd, rfl, hx, hy, hxw, hyw⟩ := genericBinopJvp_post a b g f outs e
  simp only [List.forall₂_cons, List.Forall₂.nil, and_true] at hl
  have h1 := dim_fits hg.fits ha.length hd hx hxw hl.1
  have h2 := dim_fits hg.fits hb.length hd hy hyw hl.2
  refine ⟨(genericBinopJvpU_back ha.fits hb.fits hg.fits (maxShape_self_of hf hv) f fun d' hd' => ?_).ok _ e, ?_⟩
  · rw [hd] at hd'; cases hd'; exact ⟨h1, h2⟩
  · intro o ho
    simp at ho
    rcases ho with rfl | rfl
    · exact ⟨by rw [hx]; exact h1, hxw⟩
    · exact ⟨by rw [hy]; exact h2, hyw⟩

theorem unaryJvp_ok {t g : Raw T} {outs : List (Raw T)} {f : T → T} (ht : RawFits t) (hg : RawFits g) (e : genericUnaryJvp t g f = .ok outs)
    (hl : List.Forall₂ (fun o t : Raw T => o.array.length = t.array.length) outs [t]) :
    genericUnaryJvpU .debug t g f = .ok outs ∧ ∀ o ∈ outs, RawFits o := by
  obtain ⟨d, x, hd, rfl, hx, hxw⟩ := genericUnaryJvp_post t g f outs e
  simp only [List.forall₂_cons, List.Forall₂.nil, and_true] at hl
  have h1 := dim_fits hg.fits ht.length hd hx hxw hl
  refine ⟨(genericUnaryJvpU_back ht.fits hg.fits f ht.length fun d' hd' => ?_).ok _ e, ?_⟩
  · rw [hd] at hd'; cases hd'; exact h1
  · intro o ho
    simp at ho
    subst ho
    exact ⟨by rw [hx]; exact h1, hxw⟩

theorem applyJvpU_ok {k : JvpKind} {vs outs : List (Raw T)} {g v : Raw T} (hf : fwd k vs = .ok v) (hv : Fits v.shape)
    (hvs : ∀ t ∈ vs, RawFits t) (hg : RawFits g) (hgl : g.array.length = v.array.length)
    (ht : k = .tanh → ∀ t ∈ vs, t.shape.prod < 2 ^ 32) (e : applyJvp k vs [g] = .ok outs)
    (hl : List.Forall₂ (fun o t : Raw T => o.array.length = t.array.length) outs vs) :
    applyJvpU .debug k vs [g] = .ok outs ∧ ∀ o ∈ outs, RawFits o := by
  unfold fwd at hf
  split at hf
  · exact binopJvp_ok hf hv (hvs _ (by simp)) (hvs _ (by simp)) hg e hl
  · exact unaryJvp_ok (hvs _ (by simp)) hg e hl
  · exact unaryJvp_ok (hvs _ (by simp)) hg e hl
  · simp only [applyJvp, absJvp, R.bind_eq_ok] at e
    obtain ⟨_, _, _, _, _, h1, _, h2, _, h3, e⟩ := e
    cases h1; cases h3
    obtain ⟨h4, h5⟩ := unaryJvp_ok (hvs _ (by simp)) hg e hl
    refine ⟨?_, h5⟩
    show (do
      assertR (g.shape.length == 2)
      genericUnaryJvpU .debug _ g absDeriv) = _
    rw [h2]; exact h4
  · exact ⟨(tanhJvpU_back (hvs _ (by simp)).fits (ht rfl _ (by simp)) hg.fits).ok _ e,
      fun o ho => ⟨(tanhJvp_fits (ht rfl _ (by simp)) hg.fits hg.wf e o ho).1, (tanhJvp_fits (ht rfl _ (by simp)) hg.fits hg.wf e o ho).2⟩⟩
  · next a =>
    have ha := hvs a (by simp)
    have e' := e
    simp only [applyJvp, onesJvp, R.bind_eq_ok, R.pure_eq_ok] at e
    obtain ⟨_, _, _, _, _, h1, _, h2, rfl⟩ := e
    cases h1; cases h2
    simp only [List.forall₂_cons, List.Forall₂.nil, and_true, Raw.newWithFiller_eq] at hl
    have h3 : g.shape.prod * a.shape.prod < 2 ^ 64 := by
      have := ha.length
      simp at hl
      omega
    refine ⟨(onesJvpU_back ha.fits hg.fits h3).ok _ e', ?_⟩
    intro o ho
    simp at ho
    subst ho
    exact ⟨by rw [Raw.newWithFiller_eq]; exact fits_pair hg.fits.prod ha.fits.prod h3, Raw.newWithFiller_wf _ _⟩
  · next a b =>
    have ha := hvs a (by simp)
    have hb := hvs b (by simp)
    obtain ⟨sh, x, y, hsh, rfl, hx, hy, hxw, hyw⟩ := bmmJvp_post a b g outs e
    simp only [List.forall₂_cons, List.Forall₂.nil, and_true] at hl
    have h1 : Fits sh.bmmOutput ∧ Fits sh.leftOutput ∧ Fits sh.rightOutput := by
      have h2 : x.array.length = x.shape.prod := hxw
      have h3 : y.array.length = y.shape.prod := hyw
      have hsh' := hsh
      simp only [bmmJvpShapes, R.bind_eq_ok, R.pure_eq_ok, idxR_eq_ok] at hsh
      obtain ⟨a1, e1, b0, e2, _, _, a0, e3, b1, e4, j0, e5, rfl⟩ := hsh
      rw [hx] at h2
      rw [hy] at h3
      simp at h2 h3
      have hj : j0 < 2 ^ 64 := hg.fits.lt (List.mem_of_getElem? e5)
      have two : ∀ {s : List Nat} {p q : Nat}, Fits s → s[0]? = some p → s[1]? = some q → p * q < 2 ^ 64 := by
        intro s p q hs hp hq
        match s, hp, hq with
        | p' :: q' :: rest, hp, hq =>
          simp at hp hq
          subst hp; subst hq
          simpa using (hs.sub (s' := [p', q']) (by simp)).prod
      refine ⟨?_, fits_pair hj (two ha.fits e3 e1) ?_, fits_pair hj (two hb.fits e2 e4) ?_⟩
      · obtain ⟨-, -, -, ⟨p, n, q1, q2, _, _, h8⟩ | ⟨p, q, n, q1, _, q2, _, _, h8⟩⟩ := bmmRaw_shape hf
        · change a.shape[0]? = _ at q1
          change b.shape[1]? = _ at q2
          rw [e3] at q1; rw [e4] at q2
          cases q1; cases q2
          rw [← h8]; exact hv
        · change a.shape[0]? = _ at q1
          change b.shape[1]? = _ at q2
          rw [e3] at q1; rw [e4] at q2
          cases q1; cases q2
          exact (h8 ▸ hv).sub (by simp)
      · have := ha.length; omega
      · have := hb.length; omega
    refine ⟨(bmmJvpU_back ha.fits hb.fits hg.fits fun sh' hsh' => ?_).ok _ e, ?_⟩
    · rw [hsh] at hsh'; cases hsh'; exact h1
    · intro o ho
      simp at ho
      rcases ho with rfl | rfl
      · exact ⟨by rw [hx]; exact h1.2.1, hxw⟩
      · exact ⟨by rw [hy]; exact h1.2.2, hyw⟩
  · next a b =>
    have h1 : g.shape.prod = 1 := by
      rw [← show g.array.length = g.shape.prod from hg.wf, hgl]
      simp only [dotRaw, R.bind_eq_ok, R.pure_eq_ok] at hf
      obtain ⟨_, _, _, _, rfl⟩ := hf
      rfl
    have ha := hvs a (by simp)
    have hb := hvs b (by simp)
    exact ⟨(dotJvpU_back ha.fits hb.fits hg.fits h1).ok _ e, fun o ho =>
      ⟨(dotJvp_fits ⟨ha.1, ha.2⟩ ⟨hb.1, hb.2⟩ ⟨hg.1, hg.2⟩ h1 e o ho).1, (dotJvp_fits ⟨ha.1, ha.2⟩ ⟨hb.1, hb.2⟩ ⟨hg.1, hg.2⟩ h1 e o ho).2⟩⟩
  · cases hf

end

end RL
