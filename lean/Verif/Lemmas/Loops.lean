import Verif.Model.Jvp
import Verif.Lemmas.Construct
import Verif.Lemmas.Heap

/-!
# The fuelled loops never run out of fuel, and what a finished index loop tells
-/

namespace RL

open Spec

variable {T : Type}

/-- The computation does not end in the model's "out of fuel" outcome. -/
def ND {α : Type _} (x : R α) : Prop := x ≠ .error (.panic .diverge)

theorem ND.ok {α : Type _} (a : α) : ND (Except.ok a : R α) := by simp [ND]
theorem ND.pure {α : Type _} (a : α) : ND (Pure.pure a : R α) := by simp [ND]
theorem ND.panic {α : Type _} {p : Panic} (h : p ≠ .diverge) : ND (R.panic p : R α) := by simp [ND, R.panic, h]
theorem ND.err {α : Type _} (e : IdxErr) : ND (R.err e : R α) := by simp [ND, R.err]

theorem ND.bind {α β : Type _} {x : R α} {f : α → R β} (hx : ND x) (hf : ∀ a, x = .ok a → ND (f a)) : ND (x >>= f) := by
  cases x with
  | error e => intro h; apply hx; simpa using h
  | ok a => simpa using hf a rfl

theorem ND.ite {α : Type _} {c : Prop} [Decidable c] {x y : R α} (hx : ND x) (hy : ND y) : ND (if c then x else y) := by
  split <;> assumption

theorem ND.assert (c : Bool) : ND (assertR c) := by cases c <;> simp [ND, R.panic]
theorem ND.idx {α : Type _} (l : List α) (i : Nat) : ND (idxR l i) := by
  unfold idxR; cases l[i]? <;> simp [ND, R.panic]
theorem ND.unwrapO {α : Type _} (o : Option α) : ND (RL.unwrapO o) := by cases o <;> simp [ND, R.panic, RL.unwrapO]
theorem ND.sub (a b : Nat) : ND (subR a b) := by unfold subR; split <;> simp [ND, R.panic]
theorem ND.unwrapR {α : Type _} {x : R α} (hx : ND x) : ND (RL.unwrapR x) := by
  match x, hx with
  | .ok a, _ => simp [ND]
  | .error (.err e), _ => simp [ND, R.panic]
  | .error (.panic p), hx => simpa [ND, R.panic] using hx

theorem ND.foldlM {σ α : Type _} {f : σ → α → R σ} (hf : ∀ s a, ND (f s a)) (l : List α) (s : σ) : ND (l.foldlM f s) := by
  induction l generalizing s with
  | nil => exact ND.pure s
  | cons a l ih => rw [List.foldlM_cons]; exact ND.bind (hf s a) fun s' _ => ih s'

theorem ND.mapM {α β : Type _} {f : α → R β} (hf : ∀ a, ND (f a)) (l : List α) : ND (l.mapM f) := by
  induction l with
  | nil => exact ND.pure []
  | cons a l ih =>
    rw [List.mapM_cons]
    exact ND.bind (hf a) fun _ _ => ND.bind ih fun _ _ => ND.pure _

theorem ND.new (a : List T) (s : List Nat) : ND (Raw.new a s) :=
  ND.bind (ND.assert _) fun _ _ => ND.pure _

theorem ND.globalIndexLoop (n : Nat) (off : Option (List SliceRange)) :
    ∀ (l : List (Nat × Nat)) (k g m : Nat), ND (RL.globalIndexLoop n off l k g m) := by
  intro l
  induction l with
  | nil => intro k g m; exact ND.pure g
  | cons p l ih =>
    intro k g m
    obtain ⟨dim, i⟩ := p
    unfold RL.globalIndexLoop
    refine ND.ite (ih _ _ _) ?_
    cases off with
    | none => exact ND.bind (ND.pure _) fun _ _ => ND.ite (ND.err _) (ND.ite (ND.err _) (ih _ _ _))
    | some rv =>
      exact ND.bind (ND.idx _ _) fun _ _ => ND.bind (ND.sub _ _) fun _ _ => ND.bind (ND.pure _) fun _ _ =>
        ND.ite (ND.err _) (ND.ite (ND.err _) (ih _ _ _))

theorem ND.globalIndex (i s : List Nat) (off : Option (List SliceRange)) : ND (RL.globalIndex i s off) :=
  ND.ite (ND.err _) (ND.globalIndexLoop _ _ _ _ _ _)

theorem ND.get (x : TL T) (i : List Nat) : ND (x.get i) := by
  cases x with
  | raw t => exact ND.bind (ND.globalIndex _ _ _) fun _ _ => ND.idx _ _
  | view v => exact ND.bind (ND.unwrapR (ND.globalIndex _ _ _)) fun _ _ => ND.idx _ _

theorem ND.rawGet (t : Raw T) (i : List Nat) : ND (t.get i) := ND.get (.raw t) i

theorem ND.at (t : Raw T) (i : List Nat) : ND (t.at i) := ND.unwrapR (ND.rawGet t i)

theorem ND.set (t : Raw T) (i : List Nat) (v : T) : ND (t.set i v) :=
  ND.bind (ND.globalIndex _ _ _) fun _ _ => ND.ite (ND.pure _) (ND.panic (by simp))

/-! ### the index loop with possibly zero dimensions -/

theorem incrementLoop_max (index shape : List Nat) (n : Nat) :
    incrementLoop index shape n = incrementLoop index (shape.map (max 1)) n ∨
      incrementLoop index shape n = R.panic .overflow := by
  induction n with
  | zero => exact Or.inl rfl
  | succ n ih =>
    unfold incrementLoop
    cases hv : idxR index n with
    | error e => exact Or.inl rfl
    | ok v =>
      simp only [R.bind_ok]
      rcases Nat.lt_or_ge n shape.length with hn | hn
      · rw [idxR_ok hn, idxR_ok (by simpa using hn)]
        simp only [R.bind_ok, List.getElem_map]
        rcases Nat.eq_zero_or_pos shape[n] with h0 | hp
        · right; rw [h0]; rfl
        · have : max 1 shape[n] = shape[n] := by omega
          rw [this, subR, if_pos (show 1 ≤ shape[n] from hp)]
          simp only [R.bind_ok]
          split
          · left; rfl
          · exact ih
      · left
        rw [idxR_panic hn, idxR_panic (by simpa using hn)]
        rfl

theorem incrementIndex_max (index shape : List Nat) :
    incrementIndex index shape = incrementIndex index (shape.map (max 1)) ∨
      incrementIndex index shape = R.panic .overflow :=
  incrementLoop_max _ _ _

theorem ND.incrementLoop (index shape : List Nat) (n : Nat) : ND (RL.incrementLoop index shape n) := by
  induction n with
  | zero => exact ND.pure _
  | succ n ih =>
    exact ND.bind (ND.idx _ _) fun _ _ => ND.bind (ND.idx _ _) fun _ _ => ND.bind (ND.sub _ _) fun _ _ =>
      ND.ite (ND.pure _) ih

theorem ND.incrementIndex (index shape : List Nat) : ND (RL.incrementIndex index shape) := ND.incrementLoop _ _ _

/-- A step of the odometer moves one position forward in the shape with zeros read as ones. -/
theorem incrementIndex_step {index shape index' : List Nat} (hi : InRange (shape.map (max 1)) index)
    (h : incrementIndex index shape = .ok (index', true)) :
    InRange (shape.map (max 1)) index' ∧
      rowMajor (shape.map (max 1)) index' = rowMajor (shape.map (max 1)) index + 1 := by
  rcases incrementIndex_max index shape with e | e
  · rw [e] at h
    rcases incrementIndex_spec hi with ⟨_, idx', h1, h2, h3⟩ | ⟨_, h1⟩
    · rw [h1] at h; cases h; exact ⟨h2, h3⟩
    · rw [h1] at h; cases h
  · rw [e] at h; cases h

theorem pos_map_max (shape : List Nat) : Pos (shape.map (max 1)) := by
  intro d hd
  simp only [List.mem_map] at hd
  obtain ⟨a, _, rfl⟩ := hd
  omega

theorem ND.iterLoop {σ : Type _} {body : σ → List Nat → R σ} (hb : ∀ s i, ND (body s i)) (dims : List Nat) :
    ∀ (fuel : Nat) (index : List Nat) (s : σ), InRange (dims.map (max 1)) index →
      (dims.map (max 1)).prod ≤ rowMajor (dims.map (max 1)) index + fuel →
      ND (RL.iterLoop body fuel ⟨index, dims, false⟩ s) := by
  intro fuel
  induction fuel with
  | zero =>
    intro index s hi hf
    have := rowMajor_lt hi
    omega
  | succ fuel ih =>
    intro index s hi hf
    unfold RL.iterLoop IndexIter.next
    simp only [Bool.false_eq_true, if_false]
    refine ND.bind (ND.bind (ND.incrementIndex _ _) fun _ _ => ND.ite (ND.pure _) (ND.pure _)) fun r hr => ?_
    obtain ⟨⟨index', more⟩, e1, e2⟩ := R.bind_eq_ok.1 hr
    cases more with
    | false =>
      simp at e2
      subst e2
      exact ND.pure _
    | true =>
      simp at e2
      subst e2
      simp only
      obtain ⟨h1, h2⟩ := incrementIndex_step hi e1
      exact ND.bind (hb _ _) fun s' _ => ih _ _ h1 (by omega)

theorem ND.forIndices {σ : Type _} {body : σ → List Nat → R σ} (hb : ∀ s i, ND (body s i)) (dims : List Nat) (s : σ) :
    ND (RL.forIndices dims s body) := by
  unfold RL.forIndices iterFuel RL.iterLoop
  simp only [IndexIter.new, IndexIter.next, if_true, R.pure_eq, R.bind_ok]
  refine ND.bind (hb _ _) fun s' _ => ND.iterLoop hb dims _ _ _ ?_ ?_
  · have := inRange_zero (pos_map_max dims)
    simpa using this
  · omega

/-- A finished index loop has seen no zero-length dimension. -/
theorem incrementLoop_false {index shape index' : List Nat} {n : Nat} (h : incrementLoop index shape n = .ok (index', false)) :
    ∀ j < n, ∃ d, shape[j]? = some d ∧ 0 < d := by
  induction n with
  | zero => intro j hj; omega
  | succ n ih =>
    unfold incrementLoop at h
    simp only [R.bind_eq_ok] at h
    obtain ⟨v, _, dim, hd, last, hl, h⟩ := h
    rw [idxR_eq_ok] at hd
    have hpos : 0 < dim := by
      unfold subR at hl
      split at hl
      · omega
      · cases hl
    intro j hj
    rcases Nat.lt_or_ge j n with hj' | hj'
    · split at h
      · cases h
      · exact ih h j hj'
    · have : j = n := by omega
      subst this
      exact ⟨dim, hd, hpos⟩

theorem iterLoop_ok_pos {σ : Type _} {body : σ → List Nat → R σ} {dims : List Nat} :
    ∀ {fuel : Nat} {index : List Nat} {s s' : σ} {first : Bool}, InRange (dims.map (max 1)) index →
      RL.iterLoop body fuel ⟨index, dims, first⟩ s = .ok s' → Pos dims := by
  intro fuel
  induction fuel with
  | zero => intro _ _ _ _ _ h; cases h
  | succ fuel ih =>
    intro index s s' first hi h
    unfold iterLoop at h
    rw [R.bind_eq_ok] at h
    obtain ⟨⟨o, it⟩, e1, e2⟩ := h
    unfold IndexIter.next at e1
    cases first with
    | true =>
      simp at e1
      obtain ⟨rfl, rfl⟩ := e1
      simp only [R.bind_eq_ok] at e2
      obtain ⟨s1, _, e2⟩ := e2
      exact ih hi e2
    | false =>
      simp only [Bool.false_eq_true, if_false, R.bind_eq_ok] at e1
      obtain ⟨⟨index', more⟩, e1, e3⟩ := e1
      cases more with
      | true =>
        simp at e3
        obtain ⟨rfl, rfl⟩ := e3
        simp only [R.bind_eq_ok] at e2
        obtain ⟨s1, _, e2⟩ := e2
        exact ih (incrementIndex_step hi e1).1 e2
      | false =>
        have hlen : dims.length = index.length := by simpa using hi.length
        intro d hd
        obtain ⟨j, hj, rfl⟩ := List.getElem_of_mem hd
        obtain ⟨d', h1, h2⟩ := incrementLoop_false e1 j (by omega)
        rw [List.getElem?_eq_getElem hj] at h1
        cases h1
        exact h2

theorem forIndices_ok_pos {σ : Type _} {body : σ → List Nat → R σ} {dims : List Nat} {s s' : σ}
    (h : forIndices dims s body = .ok s') : Pos dims := by
  refine iterLoop_ok_pos ?_ h
  have := inRange_zero (pos_map_max dims)
  simpa using this

/-! ### the forward operations -/

theorem ND.toTensor (x : TL T) : ND x.toTensor := by
  cases x with
  | raw t => exact ND.pure t
  | view v =>
    exact ND.bind (ND.forIndices (fun _ _ => ND.bind (ND.unwrapR (ND.get _ _)) fun _ _ => ND.pure _) _ _) fun _ _ =>
      ND.new _ _

theorem ND.tlSum [Zero T] [Add T] (x : TL T) : ND x.sum := by
  cases x with
  | raw t => exact ND.pure _
  | view v =>
    exact ND.bind (ND.forIndices (fun _ _ => ND.bind (ND.unwrapR (ND.get _ _)) fun _ _ => ND.pure _) _ _) fun _ _ =>
      ND.pure _

theorem ND.genericBinopRaw [Zero T] (l r : TL T) (op : T → T → T) : ND (RL.genericBinopRaw l r op) :=
  ND.bind (ND.assert _) fun _ _ => ND.forIndices (fun _ _ => ND.bind (ND.unwrapR (ND.get _ _)) fun _ _ =>
    ND.bind (ND.unwrapR (ND.get _ _)) fun _ _ => ND.unwrapR (ND.set _ _ _)) _ _

theorem ND.genericUnaryOp (x : TL T) (op : T → T) : ND (RL.genericUnaryOp x op) :=
  ND.bind (ND.toTensor _) fun _ _ => ND.bind (ND.foldlM (fun _ _ => ND.bind (ND.unwrapR (ND.get _ _)) fun _ _ =>
    ND.bind (ND.incrementIndex _ _) fun _ _ => ND.pure _) _ _) fun _ _ => ND.new _ _

theorem ND.elementWiseMul [Mul T] (l r : TL T) : ND (RL.elementWiseMul l r) :=
  ND.bind (ND.assert _) fun _ _ => ND.bind (ND.forIndices (fun _ _ => ND.bind (ND.unwrapR (ND.get _ _)) fun _ _ =>
    ND.bind (ND.unwrapR (ND.get _ _)) fun _ _ => ND.pure _) _ _) fun _ _ => ND.new _ _

theorem ND.mulRaw [Mul T] (l : Raw T) (r : TL T) : ND (RL.mulRaw l r) :=
  ND.ite (ND.bind (ND.idx _ _) fun _ _ => ND.pure _)
    (ND.ite (ND.bind (ND.unwrapR (ND.get _ _)) fun _ _ => ND.pure _) (ND.elementWiseMul _ _))

theorem ND.dotRaw [Zero T] [Add T] [Mul T] (l r : TL T) : ND (RL.dotRaw l r) :=
  ND.bind (ND.assert _) fun _ _ => ND.bind (ND.foldlM (fun _ _ => ND.bind (ND.idx _ _) fun _ _ =>
    ND.bind (ND.idx _ _) fun _ _ => ND.pure _) _ _) fun _ _ => ND.pure _

theorem ND.bmmRaw [Zero T] [Add T] [Mul T] (l r : TL T) : ND (RL.bmmRaw l r) := by
  unfold RL.bmmRaw
  refine ND.bind ?_ fun _ _ => ND.bind ?_ fun _ _ => ND.bind (ND.idx _ _) fun _ _ => ND.bind (ND.idx _ _) fun _ _ =>
    ND.bind (ND.idx _ _) fun _ _ => ND.bind (ND.idx _ _) fun _ _ => ND.bind ?_ fun _ _ => ND.ite (ND.pure _) (ND.pure _)
  · exact ND.bind (ND.assert _) fun _ _ => ND.bind (ND.assert _) fun _ _ => ND.bind (ND.idx _ _) fun _ _ =>
      ND.bind (ND.idx _ _) fun _ _ => ND.assert _
  · exact ND.bind (ND.idx _ _) fun _ _ => ND.bind (ND.idx _ _) fun _ _ =>
      ND.ite (ND.pure _) (ND.bind (ND.idx _ _) fun _ _ => ND.pure _)
  · exact ND.foldlM (fun _ _ => ND.foldlM (fun _ _ => ND.bind (ND.mapM (fun _ => ND.foldlM (fun _ _ =>
      ND.bind (ND.unwrapR (ND.get _ _)) fun _ _ => ND.bind (ND.unwrapR (ND.get _ _)) fun _ _ => ND.pure _) _ _) _)
      fun _ _ => ND.pure _) _ _) _ _

/-! ### the gradient functions -/

theorem ND.addAt [Add T] (a : List T) (i : Nat) (v : T) : ND (RL.addAt a i v) :=
  ND.bind (ND.idx _ _) fun _ _ => ND.pure _

theorem ND.diagLoop [Add T] [Mul T] (diagonal : Raw T) (jvpShape broadcastShape inputShape : List Nat)
    (grad : Raw T) (dim0 : Nat) : ∀ (fuel : Nat) (idx origIdx : List Nat) (array : List T),
      InRange (diagonal.shape.map (max 1)) idx →
      (diagonal.shape.map (max 1)).prod ≤ rowMajor (diagonal.shape.map (max 1)) idx + fuel →
      ND (RL.diagLoop diagonal jvpShape broadcastShape inputShape grad dim0 fuel idx origIdx array) := by
  intro fuel
  induction fuel with
  | zero =>
    intro idx _ _ hi hf
    have := rowMajor_lt hi
    omega
  | succ fuel ih =>
    intro idx origIdx array hi hf
    unfold RL.diagLoop
    refine ND.bind (ND.unwrapR (ND.globalIndex _ _ _)) fun _ _ => ND.bind (ND.foldlM (fun _ _ =>
      ND.bind (ND.unwrapR (ND.globalIndex _ _ _)) fun _ _ => ND.bind (ND.unwrapR (ND.globalIndex _ _ _)) fun _ _ =>
      ND.bind (ND.at _ _) fun _ _ => ND.bind (ND.at _ _) fun _ _ => ND.addAt _ _ _) _ _) fun _ _ =>
      ND.bind (ND.incrementIndex _ _) fun r hr => ?_
    obtain ⟨idx', more⟩ := r
    cases more with
    | false => exact ND.pure _
    | true =>
      obtain ⟨h1, h2⟩ := incrementIndex_step hi hr
      exact ND.bind (ND.incrementIndex _ _) fun _ _ => ND.bind (ND.assert _) fun _ _ => ih _ _ _ h1 (by omega)

theorem ND.jvpFromDiagonalBroadcast [Zero T] [Add T] [Mul T] (diagonal : Raw T) (jvpShape : Option (List Nat))
    (broadcastShape inputShape : List Nat) (grad : Raw T) :
    ND (RL.jvpFromDiagonalBroadcast diagonal jvpShape broadcastShape inputShape grad) := by
  unfold RL.jvpFromDiagonalBroadcast
  have h0 : InRange (diagonal.shape.map (max 1)) (List.replicate diagonal.shape.length 0) := by
    have := inRange_zero (pos_map_max diagonal.shape)
    simpa using this
  have h1 : (diagonal.shape.map (max 1)).prod ≤ rowMajor (diagonal.shape.map (max 1))
      (List.replicate diagonal.shape.length 0) + iterFuel diagonal.shape := by unfold iterFuel; omega
  refine ND.bind (ND.assert _) fun _ _ => ND.ite (ND.bind (ND.pure _) fun _ _ => ?_) (ND.bind (ND.idx _ _) fun _ _ => ?_)
  all_goals
    exact ND.bind (ND.idx _ _) fun _ _ => ND.bind (ND.assert _) fun _ _ => ND.bind (ND.idx _ _) fun _ _ =>
      ND.bind (ND.diagLoop _ _ _ _ _ _ _ _ _ _ h0 h1) fun _ _ => ND.new _ _

theorem ND.gradDim0 (g : Raw T) : ND (RL.gradDim0 g) := ND.ite (ND.pure _) (ND.idx _ _)

theorem ND.genericBinopJvp [Zero T] [Add T] [Mul T] (l r g : Raw T) (f : T → T → T) : ND (RL.genericBinopJvp l r g f) := by
  have key : ∀ (u : Unit), ND (do
      let dim0 ← RL.gradDim0 g
      let array ← RL.forIndices (maxShape l.shape r.shape) [] (fun acc idx => do
        let a ← RL.unwrapR (l.get idx)
        let b ← RL.unwrapR (r.get idx)
        return acc ++ [f a b])
      let diag ← Raw.new array [1, (maxShape l.shape r.shape).prod]
      let leftJvp ← RL.jvpFromDiagonalBroadcast diag (some [dim0, l.array.length]) (maxShape l.shape r.shape) l.shape g
      let rightJvp ← RL.jvpFromDiagonalBroadcast diag (some [dim0, r.array.length]) (maxShape l.shape r.shape) r.shape g
      return [leftJvp, rightJvp]) := fun _ =>
    ND.bind (ND.gradDim0 _) fun _ _ => ND.bind (ND.forIndices (fun _ _ => ND.bind (ND.unwrapR (ND.rawGet _ _)) fun _ _ =>
      ND.bind (ND.unwrapR (ND.rawGet _ _)) fun _ _ => ND.pure _) _ _) fun _ _ => ND.bind (ND.new _ _) fun _ _ =>
      ND.bind (ND.jvpFromDiagonalBroadcast _ _ _ _ _) fun _ _ => ND.bind (ND.jvpFromDiagonalBroadcast _ _ _ _ _) fun _ _ =>
      ND.pure _
  unfold RL.genericBinopJvp
  refine ND.ite (ND.bind (ND.idx _ _) fun _ _ => ND.bind (ND.assert _) fun u _ => key u) (key ())

theorem ND.genericUnaryJvp [Zero T] [Add T] [Mul T] (t g : Raw T) (f : T → T) : ND (RL.genericUnaryJvp t g f) :=
  ND.bind (ND.gradDim0 _) fun _ _ => ND.bind (ND.forIndices (fun _ _ => ND.bind (ND.unwrapR (ND.rawGet _ _)) fun _ _ =>
    ND.pure _) _ _) fun _ _ => ND.bind (ND.new _ _) fun _ _ =>
    ND.bind (ND.jvpFromDiagonalBroadcast _ _ _ _ _) fun _ _ => ND.pure _

theorem ND.jvpFromFullJacobians [Zero T] [Add T] [Mul T] (l r : Raw T) : ND (RL.jvpFromFullJacobians l r) :=
  ND.ite (ND.bind (ND.assert _) fun _ _ => ND.mulRaw _ _) (ND.bmmRaw _ _)

theorem ND.deliver [Add T] (a : List T × List T) (m : Msg T) : ND (RL.deliver a m) := by
  have h1 : ∀ l g, ND (senderOf l g) := fun _ _ => ND.ite (ND.pure _) (ND.panic (by simp))
  have h2 : ∀ (a : List T) s g v, ND (segmentWrite a s g v) := fun _ _ _ _ =>
    ND.bind (ND.idx _ _) fun _ _ => ND.bind (ND.sub _ _) fun _ _ => ND.bind (ND.assert _) fun _ _ => ND.addAt _ _ _
  exact ND.ite (ND.bind (h1 _ _) fun _ _ => ND.bind (h2 _ _ _ _) fun _ _ => ND.pure _)
    (ND.bind (h1 _ _) fun _ _ => ND.bind (h2 _ _ _ _) fun _ _ => ND.pure _)

theorem ND.bmmJvp [Zero T] [Add T] [Mul T] (i j : List (Raw T)) : ND (RL.bmmJvp i j) := by
  unfold RL.bmmJvp
  refine ND.bind (ND.assert _) fun _ _ => ND.bind (ND.idx _ _) fun _ _ => ND.bind (ND.idx _ _) fun _ _ =>
    ND.bind (ND.idx _ _) fun _ _ => ND.bind ?_ fun _ _ => ND.bind ?_ fun _ _ => ND.bind ?_ fun _ _ =>
    ND.bind (ND.new _ _) fun _ _ => ND.bind (ND.new _ _) fun _ _ => ND.pure _
  · exact ND.bind (ND.idx _ _) fun _ _ => ND.bind (ND.idx _ _) fun _ _ => ND.bind (ND.assert _) fun _ _ =>
      ND.bind (ND.idx _ _) fun _ _ => ND.bind (ND.idx _ _) fun _ _ => ND.bind (ND.idx _ _) fun _ _ => ND.pure _
  · refine ND.bind (ND.idx _ _) fun _ _ => ND.bind (ND.idx _ _) fun _ _ => ND.bind (ND.idx _ _) fun _ _ =>
      ND.foldlM (fun _ _ => ND.foldlM (fun _ _ => ND.foldlM (fun _ _ => ND.bind ?_ fun _ _ => ND.pure _) _ _) _ _) _ _
    exact ND.bind (ND.unwrapR (ND.globalIndex _ _ _)) fun _ _ => ND.bind (ND.unwrapR (ND.globalIndex _ _ _)) fun _ _ =>
      ND.bind (ND.unwrapR (ND.globalIndex _ _ _)) fun _ _ => ND.bind (ND.idx _ _) fun _ _ => ND.bind (ND.assert _) fun _ _ =>
      ND.bind (ND.idx _ _) fun _ _ => ND.bind (ND.assert _) fun _ _ => ND.bind (ND.idx _ _) fun _ _ =>
      ND.bind (ND.assert _) fun _ _ => ND.bind (ND.idx _ _) fun _ _ => ND.foldlM (fun _ _ =>
        ND.bind (ND.unwrapR (ND.globalIndex _ _ _)) fun _ _ => ND.bind (ND.at _ _) fun _ _ => ND.bind (ND.at _ _) fun _ _ =>
        ND.bind (ND.unwrapR (ND.globalIndex _ _ _)) fun _ _ => ND.bind (ND.at _ _) fun _ _ => ND.pure _) _ _
  · exact ND.foldlM (fun _ _ => ND.deliver _ _) _ _

section
variable [Zero T] [One T] [Add T] [Mul T] [Sub T] [Neg T] [LT T] [DecidableLT T] [LE T] [DecidableLE T] [RealFn T]

theorem ND.applyJvp (k : JvpKind) (i g : List (Raw T)) : ND (RL.applyJvp k i g) := by
  cases k with
  | add => exact ND.bind (ND.assert _) fun _ _ => ND.bind (ND.assert _) fun _ _ => ND.bind (ND.idx _ _) fun _ _ =>
      ND.bind (ND.idx _ _) fun _ _ => ND.bind (ND.idx _ _) fun _ _ => ND.genericBinopJvp _ _ _ _
  | neg => exact ND.bind (ND.idx _ _) fun _ _ => ND.bind (ND.idx _ _) fun _ _ => ND.genericUnaryJvp _ _ _
  | relu => exact ND.bind (ND.assert _) fun _ _ => ND.bind (ND.assert _) fun _ _ => ND.bind (ND.idx _ _) fun _ _ =>
      ND.bind (ND.idx _ _) fun _ _ => ND.genericUnaryJvp _ _ _
  | abs => exact ND.bind (ND.assert _) fun _ _ => ND.bind (ND.assert _) fun _ _ => ND.bind (ND.idx _ _) fun _ _ =>
      ND.bind (ND.assert _) fun _ _ => ND.bind (ND.idx _ _) fun _ _ => ND.genericUnaryJvp _ _ _
  | tanh =>
    refine ND.bind (ND.assert _) fun _ _ => ND.bind (ND.assert _) fun _ _ => ND.bind (ND.idx _ _) fun _ _ =>
      ND.bind ?_ fun _ _ => ND.bind (ND.idx _ _) fun _ _ => ND.bind (ND.jvpFromFullJacobians _ _) fun _ _ => ND.pure _
    exact ND.bind (ND.foldlM (fun _ _ => ND.foldlM (fun _ _ => ND.ite (ND.bind (ND.idx _ _) fun _ _ => ND.pure _)
      (ND.pure _)) _ _) _ _) fun _ _ => ND.new _ _
  | sum => exact ND.bind (ND.assert _) fun _ _ => ND.bind (ND.assert _) fun _ _ => ND.bind (ND.idx _ _) fun _ _ =>
      ND.bind (ND.idx _ _) fun _ _ => ND.pure _
  | bmm => exact ND.bmmJvp _ _
  | dot => exact ND.bind (ND.assert _) fun _ _ => ND.bind (ND.idx _ _) fun _ _ => ND.bind (ND.idx _ _) fun _ _ =>
      ND.bind (ND.idx _ _) fun _ _ => ND.bind (ND.jvpFromFullJacobians _ _) fun _ _ =>
      ND.bind (ND.jvpFromFullJacobians _ _) fun _ _ => ND.pure _

theorem ND.updateGrad (h : Heap T) (t g : Nat) : ND (RL.updateGrad h t g) := by
  unfold RL.updateGrad
  refine ND.bind (ND.idx _ _) fun n _ => ?_
  cases n.grad with
  | none => exact ND.bind (ND.pure _) fun _ _ => ND.pure _
  | some o => exact ND.bind (ND.bind (ND.idx _ _) fun _ _ => ND.bind (ND.idx _ _) fun _ _ =>
      ND.bind (ND.genericBinopRaw _ _ _) fun _ _ => ND.pure _) fun _ _ => ND.pure _

end

end RL
