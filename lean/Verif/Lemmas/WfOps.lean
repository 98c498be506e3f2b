import Verif.Lemmas.Updates

/-!
# Results hold as many elements as their shape says
-/

namespace RL

open Spec

variable {T : Type}

theorem Post.foldlM {σ α : Type _} {I : σ → Prop} {f : σ → α → R σ} {l : List α} (hf : ∀ s, ∀ a ∈ l, I s → Post I (f s a))
    {s : σ} (hs : I s) : Post I (l.foldlM f s) := by
  induction l generalizing s with
  | nil => exact Post.pure hs
  | cons a l ih =>
    rw [List.foldlM_cons]
    exact Post.bind fun s' e => ih (fun s b hb => hf s b (by simp [hb])) (hf s a (by simp) hs s' e)

theorem Post.iterLoop {σ : Type _} {I : σ → Prop} {body : σ → List Nat → R σ} (hb : ∀ s i, I s → Post I (body s i)) :
    ∀ (fuel : Nat) (it : IndexIter) (s : σ), I s → Post I (RL.iterLoop body fuel it s) := by
  intro fuel
  induction fuel with
  | zero => intro it s _; exact Post.error
  | succ fuel ih =>
    intro it s hs
    unfold RL.iterLoop
    refine Post.bind ?_
    rintro ⟨o, it'⟩ _
    cases o with
    | none => exact Post.pure hs
    | some idx => exact Post.bind fun s' e => ih it' s' (hb s idx hs s' e)

theorem Post.forIndices {σ : Type _} {I : σ → Prop} {body : σ → List Nat → R σ} (hb : ∀ s i, I s → Post I (body s i))
    {dims : List Nat} {s : σ} (hs : I s) : Post I (RL.forIndices dims s body) :=
  Post.iterLoop hb _ _ _ hs

theorem Post.unwrapR {α : Type _} {P : α → Prop} {x : R α} (h : Post P x) : Post P (RL.unwrapR x) := by
  cases x with
  | ok a => exact h
  | error e => cases e <;> exact Post.error

theorem Post.mono {α : Type _} {P Q : α → Prop} {x : R α} (h : Post P x) (hpq : ∀ a, P a → Q a) : Post Q x :=
  fun a ha => hpq a (h a ha)

theorem set_post (t : Raw T) (idx : List Nat) (v : T) :
    Post (fun t' => t'.shape = t.shape ∧ t'.array.length = t.array.length) (t.set idx v) := by
  unfold Raw.set
  exact Post.bind fun _ _ => Post.ite (fun _ => Post.pure (by simp)) (fun _ => Post.error)

theorem genericBinopRaw_post [Zero T] (l r : TL T) (op : T → T → T) :
    Post (fun t => t.shape = maxShape l.shape r.shape ∧ WF t) (genericBinopRaw l r op) := by
  unfold genericBinopRaw
  refine Post.bind fun _ _ => Post.forIndices (I := fun t => t.shape = maxShape l.shape r.shape ∧ WF t) ?_ ?_
  · rintro s i ⟨h1, h2⟩
    refine Post.bind fun _ _ => Post.bind fun _ _ => Post.unwrapR ((set_post _ _ _).mono ?_)
    rintro t ⟨h3, h4⟩
    refine ⟨h3.trans h1, ?_⟩
    simp only [WF] at h2 ⊢
    rw [h4, h3, h2]
  · exact ⟨by rw [Raw.newWithFiller_eq], Raw.newWithFiller_wf _ _⟩

theorem genericUnaryOp_post (x : TL T) (op : T → T) : Post WF (genericUnaryOp x op) := by
  unfold genericUnaryOp
  exact Post.bind fun _ _ => Post.bind fun _ _ => (Post.new _ _).mono fun _ h => h.2

theorem sum_post [Zero T] [Add T] (x : TL T) : Post (fun t => t.shape = [] ∧ WF t) x.sum := by
  cases x with
  | raw t => exact Post.pure ⟨rfl, rfl⟩
  | view v => exact Post.bind fun _ _ => Post.pure ⟨rfl, rfl⟩

theorem dotRaw_post [Zero T] [Add T] [Mul T] (l r : TL T) : Post WF (dotRaw l r) :=
  Post.bind fun _ _ => Post.bind fun _ _ => Post.pure rfl

theorem toTensor_post {x : TL T} (hx : ∀ t, x = .raw t → WF t) : Post WF x.toTensor := by
  cases x with
  | raw t => exact Post.pure (hx t rfl)
  | view v => exact Post.bind fun _ _ => (Post.new _ _).mono fun _ h => h.2

theorem mapM_length {α β : Type _} (f : α → R β) (l : List α) : Post (fun bs => bs.length = l.length) (l.mapM f) := by
  intro bs h
  exact (mapM_ok_iff.1 h).length_eq.symm

theorem foldlM_range_length {α : Type _} {c : Nat} {f : List α → Nat → R (List α)} (n : Nat)
    (hf : ∀ acc i, Post (fun out => out.length = acc.length + c) (f acc i)) (acc : List α) :
    Post (fun out => out.length = acc.length + n * c) ((List.range n).foldlM f acc) := by
  induction n with
  | zero => exact Post.pure (by simp)
  | succ n ih =>
    rw [List.range_succ, List.foldlM_append]
    refine Post.bind fun acc' e => ?_
    have := ih acc' e
    simp only [List.foldlM_cons, List.foldlM_nil]
    refine Post.bind fun out e' => Post.pure ?_
    rw [hf _ _ out e', this]
    ring

theorem bmmRaw_post [Zero T] [Add T] [Mul T] (l r : TL T) : Post WF (bmmRaw l r) := by
  unfold bmmRaw
  refine Post.bind fun _ _ => Post.bind fun ns hns => Post.bind fun nb hnb => Post.bind fun nr hnr => Post.bind fun nc hnc =>
    Post.bind fun rows _ => Post.bind fun arr harr => ?_
  have hlen : arr.length = nb * (nr * nc) := by
    have := foldlM_range_length (c := nr * nc) nb (f := fun acc batch =>
        (List.range nr).foldlM (init := acc) (fun acc i => do
          let row ← (List.range nc).mapM (fun j => bmmEntry l r (bmmLeftIndex l batch i) r.shape rows j)
          return acc ++ row)) (fun acc p => foldlM_range_length (c := nc) nr (fun acc i => Post.bind fun row hrow => Post.pure (by
            have := mapM_length _ _ row hrow
            simp [this])) acc) [] arr harr
    simpa using this
  simp only [bmmShape, R.bind_eq_ok, idxR_eq_ok] at hns
  obtain ⟨n, hn, l0, hl0, hns⟩ := hns
  by_cases h2 : l.shape.length = 2
  · rw [if_pos h2] at hns ⊢
    rw [R.pure_eq_ok] at hns
    subst hns
    rw [idxR_eq_ok] at hnb hnr hnc
    simp at hnb hnr hnc
    subst hnb; subst hnr; subst hnc
    exact Post.pure (by simp [WF, hlen])
  · rw [if_neg h2] at hns ⊢
    simp only [R.bind_eq_ok, R.pure_eq_ok] at hns
    obtain ⟨l1, _, hns⟩ := hns
    subst hns
    rw [idxR_eq_ok] at hnb hnr hnc
    simp at hnb hnr hnc
    subst hnb; subst hnr; subst hnc
    exact Post.pure (by simp [WF, hlen])

theorem mulRaw_post [Mul T] {l : Raw T} {r : TL T} (hl : WF l) (hr : ∀ t, r = .raw t → WF t) (hv : ∀ v, r = .view v → l.shape ≠ []) :
    Post WF (mulRaw l r) := by
  unfold mulRaw
  refine Post.ite (fun h => Post.bind fun _ _ => Post.pure ?_) fun _ => Post.ite (fun _ => Post.bind fun _ _ => Post.pure ?_) fun _ => ?_
  · cases r with
    | raw t =>
      have := hr t rfl
      simpa [WF, TL.leftScalarMul, TL.tensor, TL.shape] using this
    | view v => exact absurd (List.isEmpty_iff.1 h) (hv v rfl)
  · simpa [WF, TL.rightScalarMul, TL.tensor, TL.shape] using hl
  · exact Post.bind fun _ _ => Post.bind fun _ _ => (Post.new _ _).mono fun _ h => h.2

/-- All data is well-formed. -/
def AllWF (h : Heap T) : Prop := ∀ (i : Nat) (n : Node T), h[i]? = some n → WF n.val

theorem AllWF.append {h : Heap T} (hw : AllWF h) {n : Node T} (hn : WF n.val) : AllWF (h ++ [n]) := by
  intro i m hm
  rcases Nat.lt_trichotomy i h.length with hi | hi | hi
  · rw [List.getElem?_append_left hi] at hm
    exact hw i m hm
  · subst hi
    simp at hm
    subst hm
    exact hn
  · have : (h ++ [n])[i]? = none := List.getElem?_eq_none (by simp; omega)
    rw [this] at hm
    cases hm

theorem AllWF.set {h : Heap T} (hw : AllWF h) {t : Nat} {n : Node T} (hn : h[t]? = some n) (g : Option Nat) :
    AllWF (h.set t { n with grad := g }) := by
  intro i m hm
  by_cases hi : t = i
  · subst hi
    rw [List.getElem?_set_self (getElem?_lt hn)] at hm
    cases hm
    exact hw t n hn
  · rw [List.getElem?_set_ne hi] at hm
    exact hw i m hm

section
variable [Zero T] [One T] [Add T] [Mul T] [Sub T] [Neg T] [LT T] [DecidableLT T] [LE T] [DecidableLE T] [RealFn T]

theorem updateGrad_wf {h h' : Heap T} {t g : Nat} (hw : AllWF h) (e : updateGrad h t g = .ok h') : AllWF h' := by
  obtain ⟨n, hn, ⟨_, rfl⟩ | ⟨o, on, gn, v, _, ho, hg, hv, rfl⟩⟩ := updateGrad_inv e
  · exact hw.set hn _
  · have hn' : (h ++ [(⟨v, none, some ⟨[o, g], .add⟩⟩ : Node T)])[t]? = some n := by
      rw [List.getElem?_append_left (getElem?_lt hn), hn]
    exact (hw.append (n := ⟨v, none, some ⟨[o, g], .add⟩⟩) (genericBinopRaw_post _ _ _ v hv).2).set hn' _

theorem applyUpdates_wf {us : List (Nat × Raw T)} : ∀ {h h' : Heap T}, AllWF h → (∀ u ∈ us, WF u.2) →
    applyUpdates h us = .ok h' → AllWF h' := by
  induction us with
  | nil => intro h h' hw _ e; cases e; exact hw
  | cons u us ih =>
    intro h h' hw hu e
    rw [applyUpdates_cons, R.bind_eq_ok] at e
    obtain ⟨h1, e1, e2⟩ := e
    exact ih (updateGrad_wf (hw.append (n := leafNode u.2) (hu u (by simp))) e1) (fun v hv => hu v (by simp [hv])) e2

theorem rawBin_post (k : RawBin) (l r : TL T) : Post WF (k.val l r) := by
  cases k with
  | add => exact (genericBinopRaw_post _ _ _).mono fun _ h => h.2
  | mul => exact Post.bind fun _ _ => Post.bind fun _ _ => (Post.new _ _).mono fun _ h => h.2
  | dot => exact dotRaw_post _ _
  | bmm => exact bmmRaw_post _ _

theorem Op.run_wf {h h' : Heap T} {op : Op T} (hg : h.Good) (hw : AllWF h) (hop : ¬ Misshaping h op) (e : op.run h = .ok h') :
    AllWF h' := by
  have hu : ∀ (k : Node T → R (Raw T)) (d : Deriv) (t : Nat), (∀ n, Post WF (k n)) → (do
      let x ← (do
        let n ← h.node t
        let val ← k n
        return h.alloc { val, grad := none, gradFn := some d } : R (Heap T × Nat))
      return x.1 : R (Heap T)) = .ok h' → AllWF h' := by
    intro k d t hk e
    simp only [R.bind_eq_ok, R.pure_eq_ok, Heap.alloc] at e
    obtain ⟨p, ⟨n, _, v, hv, rfl⟩, rfl⟩ := e
    exact hw.append (hk n v hv)
  have hadd : ∀ {h0 h1 : Heap T} {l r id}, AllWF h0 → addT h0 l r = .ok (h1, id) → AllWF h1 := by
    intro h0 h1 l r id hw e
    obtain ⟨ln, rn, v, _, _, hv, rfl, -⟩ := addT_inv e
    exact hw.append (genericBinopRaw_post _ _ _ v hv).2
  cases op with
  | new a s =>
    simp only [Op.run, R.bind_eq_ok, R.pure_eq_ok, Heap.leaf, Heap.alloc] at e
    obtain ⟨v, hv, rfl⟩ := e
    exact hw.append (Post.new _ _ v hv).2
  | filler s v =>
    simp only [Op.run, R.pure_eq_ok, Heap.leaf, Heap.alloc] at e
    subst e
    exact hw.append (n := leafNode _) (Raw.newWithFiller_wf _ _)
  | scalar v =>
    simp only [Op.run, R.pure_eq_ok, Heap.leaf, Heap.alloc] at e
    subst e
    exact hw.append (n := leafNode _) rfl
  | default => exact absurd .default hop
  | add l r => obtain ⟨_, e⟩ := map_fst_eq_ok e; exact hadd hw e
  | sub l r =>
    obtain ⟨_, e⟩ := map_fst_eq_ok e
    simp only [subT, R.bind_eq_ok] at e
    obtain ⟨⟨h1, m⟩, e1, e2⟩ := e
    obtain ⟨n, v, _, hv, rfl, -⟩ := negT_inv e1
    exact hadd (hw.append (genericUnaryOp_post _ _ v hv)) e2
  | neg t => exact hu _ _ t (fun n => genericUnaryOp_post _ _) e
  | relu t => exact hu _ _ t (fun n => genericUnaryOp_post _ _) e
  | tanh t => exact hu _ _ t (fun n => genericUnaryOp_post _ _) e
  | abs t => exact hu _ _ t (fun n => genericUnaryOp_post _ _) e
  | sum t =>
    obtain ⟨_, e⟩ := map_fst_eq_ok e
    simp only [sumT, R.bind_eq_ok, R.pure_eq_ok, Heap.alloc, Heap.leaf] at e
    obtain ⟨n, _, v, hv, e⟩ := e
    cases e
    exact (hw.append (n := leafNode _) (Raw.newWithFiller_wf _ _)).append (sum_post _ v hv).2
  | mul l r =>
    obtain ⟨_, e⟩ := map_fst_eq_ok e
    simp only [mulT, R.bind_eq_ok, R.pure_eq_ok, Heap.alloc, Heap.leaf, Heap.node_eq_ok] at e
    obtain ⟨ln, hl, rn, hr, v, hv, e⟩ := e
    cases e
    exact hw.append (n := leafNode _) (mulRaw_post (hw l ln hl) (fun t ht => by cases ht; exact hw r rn hr) (fun v hv => by cases hv) v hv)
  | bmm l r =>
    obtain ⟨_, e⟩ := map_fst_eq_ok e
    simp only [bmmT, R.bind_eq_ok, R.pure_eq_ok, Heap.alloc, Heap.node_eq_ok] at e
    obtain ⟨ln, hl, rn, hr, v, hv, e⟩ := e
    cases e
    exact hw.append (bmmRaw_post _ _ v hv)
  | dot l r =>
    obtain ⟨_, e⟩ := map_fst_eq_ok e
    simp only [dotT, R.bind_eq_ok, R.pure_eq_ok, Heap.alloc, Heap.node_eq_ok] at e
    obtain ⟨ln, hl, rn, hr, v, hv, e⟩ := e
    cases e
    exact hw.append (dotRaw_post _ _ v hv)
  | viewToTensor v =>
    obtain ⟨_, e⟩ := map_fst_eq_ok e
    simp only [viewToTensorT, R.bind_eq_ok, R.pure_eq_ok, Heap.alloc, Heap.leaf] at e
    obtain ⟨w, hvw, v, hv, e⟩ := e
    cases e
    exact hw.append (n := leafNode _) (toTensor_post (fun t ht => by cases ht) v hv)
  | viewSum v =>
    obtain ⟨_, e⟩ := map_fst_eq_ok e
    simp only [viewSumT, R.bind_eq_ok, R.pure_eq_ok, Heap.alloc, Heap.leaf] at e
    obtain ⟨w, hvw, v, hv, e⟩ := e
    cases e
    exact hw.append (n := leafNode _) (sum_post _ v hv).2
  | bmmView l v =>
    obtain ⟨_, e⟩ := map_fst_eq_ok e
    simp only [bmmViewT, R.bind_eq_ok, R.pure_eq_ok, Heap.alloc, Heap.leaf] at e
    obtain ⟨ln, _, w, _, v, hv, rv, hr, e⟩ := e
    cases e
    exact (hw.append (n := leafNode _) (toTensor_post (fun t ht => by cases ht) rv hr)).append (bmmRaw_post _ _ v hv)
  | viewBmm v r =>
    obtain ⟨_, e⟩ := map_fst_eq_ok e
    simp only [viewBmmT, R.bind_eq_ok, R.pure_eq_ok, Heap.alloc, Heap.leaf] at e
    obtain ⟨ln, _, w, _, v, hv, e⟩ := e
    cases e
    exact hw.append (n := leafNode _) (bmmRaw_post _ _ v hv)
  | viewBmmView v w =>
    obtain ⟨_, e⟩ := map_fst_eq_ok e
    simp only [viewBmmViewT, R.bind_eq_ok, R.pure_eq_ok, Heap.alloc, Heap.leaf] at e
    obtain ⟨ln, _, w, _, v, hv, e⟩ := e
    cases e
    exact hw.append (n := leafNode _) (bmmRaw_post _ _ v hv)
  | mulView l v =>
    obtain ⟨_, e⟩ := map_fst_eq_ok e
    simp only [mulViewT, R.bind_eq_ok, R.pure_eq_ok, Heap.alloc, Heap.leaf, Heap.node_eq_ok] at e
    obtain ⟨ln, hl, w, _, val, hv, e⟩ := e
    cases e
    exact hw.append (n := leafNode _) (mulRaw_post (hw l ln hl) (fun t ht => by cases ht)
      (fun u hu hs => hop (.mulView l v ln.val (by simp [dataOf, hl]) hs)) val hv)
  | rawBin k l r =>
    obtain ⟨_, e⟩ := map_fst_eq_ok e
    simp only [rawBinT, R.bind_eq_ok, R.pure_eq_ok, Heap.alloc, Heap.leaf] at e
    obtain ⟨x, _, y, _, val, hv, e⟩ := e
    cases e
    exact hw.append (n := leafNode _) (rawBin_post k x y val hv)
  | rawSub l r =>
    obtain ⟨_, e⟩ := map_fst_eq_ok e
    simp only [rawSubT, R.bind_eq_ok, R.pure_eq_ok, Heap.alloc, Heap.leaf, subRaw] at e
    obtain ⟨x, _, y, _, val, ⟨_, _, hv⟩, e⟩ := e
    cases e
    exact hw.append (n := leafNode _) (genericBinopRaw_post _ _ _ val hv).2
  | rawUnary f x =>
    obtain ⟨_, e⟩ := map_fst_eq_ok e
    simp only [rawUnaryT, R.bind_eq_ok, R.pure_eq_ok, Heap.alloc, Heap.leaf] at e
    obtain ⟨x, _, val, hv, e⟩ := e
    cases e
    exact hw.append (n := leafNode _) (genericUnaryOp_post _ _ val hv)
  | leftMul s x =>
    obtain ⟨_, e⟩ := map_fst_eq_ok e
    cases x with
    | view v => exact absurd (.leftMul s v) hop
    | tensor t =>
      simp only [leftMulT, Opnd.eval, R.bind_eq_ok, R.pure_eq_ok, Heap.alloc, Heap.leaf, Heap.node_eq_ok] at e
      obtain ⟨x, ⟨n, hn, rfl⟩, e⟩ := e
      cases e
      refine hw.append (n := leafNode _) ?_
      have := hw t n hn
      simpa [leafNode, WF, TL.leftScalarMul, TL.tensor, TL.shape] using this
  | rightMul x s =>
    obtain ⟨_, e⟩ := map_fst_eq_ok e
    cases x with
    | view v => exact absurd (.rightMul v s) hop
    | tensor t =>
      simp only [rightMulT, Opnd.eval, R.bind_eq_ok, R.pure_eq_ok, Heap.alloc, Heap.leaf, Heap.node_eq_ok] at e
      obtain ⟨x, ⟨n, hn, rfl⟩, e⟩ := e
      cases e
      refine hw.append (n := leafNode _) ?_
      have := hw t n hn
      simpa [leafNode, WF, TL.rightScalarMul, TL.tensor, TL.shape] using this
  | rawSum t =>
    obtain ⟨_, e⟩ := map_fst_eq_ok e
    obtain ⟨n, v, _, hv, rfl, -⟩ := rawSumT_inv e
    exact (hw.append (n := leafNode _) (Raw.newWithFiller_wf _ _)).append (sum_post _ v hv).2
  | deepClone t =>
    obtain ⟨_, e⟩ := map_fst_eq_ok e
    simp only [deepCloneT, R.bind_eq_ok, R.pure_eq_ok, Heap.node_eq_ok, Heap.alloc] at e
    obtain ⟨n, hn, e⟩ := e
    cases e
    exact hw.append (hw t n hn)
  | rawClone t =>
    obtain ⟨_, e⟩ := map_fst_eq_ok e
    obtain ⟨n, hn, rfl, -⟩ := rawCloneT_inv e
    exact hw.append (hw t n hn)
  | updateGrad t g =>
    simp only [Op.run, R.bind_eq_ok] at e
    obtain ⟨gn, _, e⟩ := e
    exact updateGrad_wf hw e
  | zeroGrad t =>
    obtain ⟨n, hn, rfl⟩ := zeroGrad_inv e
    exact hw.set hn _
  | backward l =>
    obtain ⟨n, d, us, _, _, _, h1, h2⟩ := backward_inv hg e
    refine applyUpdates_wf hw (fun u hu => ?_) h2
    obtain ⟨_, _, _, h3⟩ := jvpUpdates_shape h1 u hu
    exact h3

end

end RL
