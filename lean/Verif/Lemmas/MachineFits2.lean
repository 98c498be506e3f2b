import Verif.Lemmas.MachineFits

/-!
# The same for the operations on tensors with history
-/

namespace RL

open Spec

variable {T : Type}

section

variable {α β : Type _}

/-- If the first computation succeeds with a result that satisfies `P`, so does the second, with the same result. -/
def BackIf (P : α → Prop) (x y : R α) : Prop := ∀ a, x = .ok a → P a → y = .ok a

theorem BackIf.of {P : α → Prop} {x y : R α} (h : Back x y) : BackIf P x y := fun a ha _ => h.ok a ha

theorem BackIf.bind {P : β → Prop} {x y : R α} {f g : α → R β} (h : Back x y) (hf : ∀ a, x = .ok a → BackIf P (f a) (g a)) :
    BackIf P (x >>= f) (y >>= g) := by
  intro b hb hP
  rw [R.bind_eq_ok] at hb ⊢
  obtain ⟨a, h1, h2⟩ := hb
  exact ⟨a, h.ok a h1, hf a h1 b h2 hP⟩

theorem BackIf.step {P : β → Prop} {x : R β} {y : R α} {a : α} {g : α → R β} (h : y = .ok a) (hf : BackIf P x (g a)) :
    BackIf P x (y >>= g) := by
  rw [h]; exact hf

theorem BackIf.last {P : β → Prop} {x y : R α} {F : α → β} (h : BackIf (fun a => P (F a)) x y) :
    BackIf P (x >>= fun a => pure (F a)) (y >>= fun a => pure (F a)) := by
  intro b hb hP
  rw [R.bind_eq_ok] at hb ⊢
  obtain ⟨a, h1, h2⟩ := hb
  cases h2
  exact ⟨a, h a h1 hP, rfl⟩

theorem BackIf.mono {P Q : α → Prop} {x y : R α} (h : BackIf P x y) (hPQ : ∀ a, Q a → P a) : BackIf Q x y :=
  fun a ha hq => h a ha (hPQ a hq)

end

/-! ## Graphs -/

theorem GraphFits.get {h : Heap T} (hf : GraphFits h) {i : Nat} {n : Node T} (hn : h[i]? = some n) : Fits n.val.shape :=
  hf.shapes i n.val (by simp [dataOf, hn])

theorem GraphFits.node {h : Heap T} (hf : GraphFits h) {i : Nat} {n : Node T} (hn : h.node i = .ok n) : Fits n.val.shape :=
  GraphFits.get hf (Heap.node_eq_ok.1 hn)

theorem GraphFits.frame {h h' : Heap T} (hf : Frame h h') (hh : GraphFits h') : GraphFits h where
  shapes i t ht := by
    simp only [dataOf, Option.map_eq_some_iff] at ht
    obtain ⟨n, hn, rfl⟩ := ht
    obtain ⟨g, hg⟩ := hf.get hn
    exact GraphFits.get (n := { n with grad := g }) hh hg
  tanh i j t hi hj := by
    simp only [dataOf, historyOf, Option.map_eq_some_iff] at hi hj
    obtain ⟨n, hn, h1⟩ := hi
    obtain ⟨m, hm, rfl⟩ := hj
    obtain ⟨g, hg⟩ := hf.get hn
    obtain ⟨g', hg'⟩ := hf.get hm
    exact hh.tanh i j m.val (by simp [historyOf, hg, h1]) (by simp [dataOf, hg'])

theorem GraphFits.last {h : Heap T} {n : Node T} (hf : GraphFits (h ++ [n])) : Fits n.val.shape :=
  GraphFits.get hf (i := h.length) (by simp)

theorem VExpr.evalU_ok {h : Heap T} (hf : GraphFits h) : ∀ {e : VExpr} {v : View T}, ViewFits e → e.eval h = .ok v →
    e.evalU .debug h = .ok v ∧ ViewOk v := by
  intro e
  induction e with
  | view t r =>
    intro v _ he
    simp only [VExpr.eval, R.bind_eq_ok] at he
    obtain ⟨n, hn, he⟩ := he
    simp only [VExpr.evalU, hn, R.bind_ok, View.newU_debug]
    exact ⟨he, (viewOk_new (GraphFits.node hf hn) he).1⟩
  | reshape e s ih =>
    intro v hv he
    simp only [VExpr.eval, R.bind_eq_ok] at he
    obtain ⟨w, hw, he⟩ := he
    obtain ⟨h1, h2⟩ := ih hv.1 hw
    simp only [VExpr.evalU, h1, R.bind_ok, View.reshapeU_back h2 hv.2]
    refine ⟨he, ?_⟩
    simp only [View.reshape, R.bind_eq_ok, R.pure_eq_ok] at he
    obtain ⟨_, _, rfl⟩ := he
    exact ⟨h2.tensor, h2.stop, hv.2⟩
  | slice e r ih =>
    intro v hv he
    simp only [VExpr.eval, R.bind_eq_ok] at he
    obtain ⟨w, hw, he⟩ := he
    obtain ⟨h1, h2⟩ := ih hv hw
    simp only [VExpr.evalU, h1, R.bind_ok, View.sliceU, View.newU_debug]
    exact ⟨he, (viewOk_new h2.tensor he).1⟩

theorem VExpr.evalU_back {h : Heap T} (hf : GraphFits h) {e : VExpr} (he : ViewFits e) : Back (e.eval h) (e.evalU .debug h) :=
  .of fun _ hv => (VExpr.evalU_ok hf he hv).1

theorem Opnd.evalU_ok {h : Heap T} (hf : GraphFits h) {x : Opnd} {v : TL T} (hx : OpndFits x) (he : x.eval h = .ok v) :
    x.evalU .debug h = .ok v ∧ TLFits v := by
  cases x with
  | tensor t =>
    simp only [Opnd.eval, R.bind_eq_ok, R.pure_eq_ok] at he
    obtain ⟨n, hn, rfl⟩ := he
    simp only [Opnd.evalU, hn, R.bind_ok]
    exact ⟨rfl, GraphFits.node hf hn⟩
  | view w =>
    simp only [Opnd.eval, R.bind_eq_ok, R.pure_eq_ok] at he
    obtain ⟨n, hn, rfl⟩ := he
    obtain ⟨h1, h2⟩ := VExpr.evalU_ok hf hx hn
    simp only [Opnd.evalU, h1, R.bind_ok]
    exact ⟨rfl, h2⟩

theorem Opnd.evalU_back {h : Heap T} (hf : GraphFits h) {x : Opnd} (hx : OpndFits x) : Back (x.eval h) (x.evalU .debug h) :=
  .of fun _ hv => (Opnd.evalU_ok hf hx hv).1

section

variable [Zero T] [One T] [Add T] [Mul T] [Sub T] [Neg T] [LT T] [DecidableLT T] [LE T] [DecidableLE T] [RealFn T]

theorem addRawU_if {l r : TL T} (hl : TLFits l) (hr : TLFits r) : BackIf (fun v => Fits v.shape) (addRaw l r) (addRawU .debug l r) :=
  fun _ e hv => genericBinopRawU_ok hl hr e hv

theorem bmmRawU_if {l r : TL T} (hl : TLFits l) (hr : TLFits r) : BackIf (fun v => Fits v.shape) (bmmRaw l r) (bmmRawU .debug l r) :=
  fun _ e hv => bmmRawU_ok hl hr e hv

theorem addTU_ok {h h' : Heap T} {l r id : Nat} (e : addT h l r = .ok (h', id)) (hf : GraphFits h') : addTU .debug h l r = .ok (h', id) := by
  obtain ⟨ln, rn, v, hl, hr, hv, rfl, rfl⟩ := addT_inv e
  have hf0 := GraphFits.frame (Frame.append _ _) hf
  simp only [addTU, Heap.node_eq_ok.2 hl, Heap.node_eq_ok.2 hr, R.bind_ok,
    addRawU_if (l := .raw ln.val) (r := .raw rn.val) (GraphFits.get hf0 hl) (GraphFits.get hf0 hr) v hv (GraphFits.last hf)]
  rfl

theorem updateGradU_ok {h h' : Heap T} {t g : Nat} (e : updateGrad h t g = .ok h') (hf : GraphFits h') : updateGradU .debug h t g = .ok h' := by
  have hfr := updateGrad_frame e
  unfold updateGrad at e
  rw [R.bind_eq_ok] at e
  obtain ⟨n, hn, e⟩ := e
  rw [updateGradU, hn, R.bind_ok]
  dsimp only at e ⊢
  cases hg : n.grad with
  | none => rw [hg] at e; exact e
  | some o =>
    rw [hg] at e
    simp only [R.bind_eq_ok] at e
    obtain ⟨⟨h1, id⟩, h2, e⟩ := e
    cases e
    obtain ⟨ln, rn, v, hl, hr, hv, rfl, rfl⟩ := addT_inv h2
    have hn' : (h ++ [(⟨v, none, some ⟨[o, g], .add⟩⟩ : Node T)])[t]? = some n := by
      rw [Heap.node_eq_ok] at hn
      rw [List.getElem?_append_left (getElem?_lt hn), hn]
    simp only [addTU_ok h2 (GraphFits.frame (Frame.set hn' _) hf), R.bind_ok]
    rfl

/-! ## `backward` -/

theorem computeJvpU_ok {h0 : Heap T} (hg0 : h0.Good) : ∀ (fuel : Nat) {h h' : Heap T} {d : Deriv} {g : Raw T} {t : Nat} {n : Node T}, Frame h0 h →
    h0[t]? = some n → n.gradFn = some d → GraphFits h' → RawFits g → g.array.length = n.val.array.length →
    computeJvp fuel h d [g] = .ok h' → computeJvpU .debug fuel h d [g] = .ok h' := by
  intro fuel
  induction fuel with
  | zero => intro h h' d g t n _ _ _ _ _ _ e; cases e
  | succ fuel ih =>
    intro h h' d g t n hf hn hd hfit hg hgl e
    have hlt : ∀ i ∈ d.inputs, i < h0.length := fun i hi => ((hg0 t n hn).older d hd i hi).trans (getElem?_lt hn)
    have hfit0 := GraphFits.frame (hf.trans (computeJvp_frame hg0 hf hlt e)) hfit
    obtain ⟨vs, hvs, hfwd⟩ := (hg0 t n hn).explained d hd
    have hvs' : d.inputs.mapM (fun i => do return (← h.node i).val) = .ok vs := hf.vals hvs
    unfold computeJvp at e
    unfold computeJvpU
    rw [hvs', R.bind_ok] at e ⊢
    rw [R.bind_eq_ok] at e
    obtain ⟨outs, houts, e⟩ := e
    -- what the loop over the inputs says about them
    have key : ∀ (l : List (Raw T × Nat)) (h : Heap T), Frame h0 h → (∀ p ∈ l, p.2 < h0.length) →
        l.foldlM (init := h) (fun h (grad, input) => do
          let n ← h.node input
          assertR (grad.array.length == n.val.array.length)
          let shapedGrad ← Raw.new grad.array n.val.shape
          let (h, g) := h.leaf shapedGrad
          let h ← updateGrad h input g
          match n.gradFn with
          | some d' => computeJvp fuel h d' [grad]
          | none => return h) = .ok h' →
        (∀ p ∈ l, ∃ m, h0[p.2]? = some m ∧ p.1.array.length = m.val.array.length ∧ WF m.val) ∧ Frame h h' ∧
        ((∀ p ∈ l, RawFits p.1) → l.foldlM (init := h) (fun h (grad, input) => do
          let n ← h.node input
          debugAssertR .debug (grad.array.length == n.val.array.length)
          let shapedGrad ← Raw.newU .debug grad.array n.val.shape
          let (h, g) := h.leaf shapedGrad
          let h ← updateGradU .debug h input g
          match n.gradFn with
          | some d' => computeJvpU .debug fuel h d' [grad]
          | none => return h) = .ok h') := by
      intro l
      induction l with
      | nil =>
        intro h _ _ e
        cases e
        exact ⟨by simp, Frame.refl _, fun _ => rfl⟩
      | cons p l ihl =>
        obtain ⟨grad, input⟩ := p
        intro h hf hmem e
        have hin : input < h0.length := hmem (grad, input) (by simp)
        obtain ⟨m, hm⟩ : ∃ m, h0[input]? = some m := ⟨_, List.getElem?_eq_getElem hin⟩
        obtain ⟨gr, hm'⟩ := hf.get hm
        rw [List.foldlM_cons, R.bind_eq_ok] at e
        obtain ⟨h3, e1, e2⟩ := e
        simp only [R.bind_eq_ok, Heap.node_eq_ok] at e1
        obtain ⟨m', hm'', ⟨⟩, ha, sg, hs, h2, hu, e1⟩ := e1
        rw [hm'] at hm''
        cases hm''
        rw [assertR_eq_ok, beq_iff_eq] at ha
        dsimp only at ha hs e1
        have hsg := Raw.new_ok_iff.1 hs
        have f1 : Frame h h2 := (Frame.append h _).trans (updateGrad_frame hu)
        have hlt' : ∀ d', m.gradFn = some d' → ∀ i ∈ d'.inputs, i < h0.length := fun d' hd' i hi =>
          ((hg0 input m hm).older d' hd' i hi).trans hin
        have f2 : Frame h2 h3 := by
          cases hd' : m.gradFn with
          | none => rw [hd'] at e1; cases e1; exact Frame.refl _
          | some d' => rw [hd'] at e1; exact computeJvp_frame hg0 (hf.trans f1) (hlt' d' hd') e1
        obtain ⟨q1, q2, q3⟩ := ihl h3 ((hf.trans f1).trans f2) (fun p hp => hmem p (by simp [hp])) e2
        have hfit3 := GraphFits.frame q2 hfit
        have hfit2 := GraphFits.frame f2 hfit3
        refine ⟨?_, (f1.trans f2).trans q2, ?_⟩
        · intro p hp
          rcases List.mem_cons.1 hp with rfl | hp
          · exact ⟨m, hm, ha, ha.symm.trans hsg.1⟩
          · exact q1 p hp
        · intro hr
          rw [List.foldlM_cons, R.bind_eq_ok]
          refine ⟨h3, ?_, q3 fun p hp => hr p (by simp [hp])⟩
          dsimp only
          rw [Heap.node_eq_ok.2 hm', R.bind_ok]
          dsimp only
          have hda : debugAssertR .debug (grad.array.length == m.val.array.length) = .ok () := by rw [ha, beq_self_eq_true]; rfl
          rw [hda, R.bind_ok, newU_back (GraphFits.get hfit0 hm), hs, R.bind_ok, updateGradU_ok hu hfit2, R.bind_ok]
          cases hd' : m.gradFn with
          | none => rw [hd'] at e1; exact e1
          | some d' =>
            rw [hd'] at e1
            exact ih (hf.trans f1) hm hd' hfit3 (hr (grad, input) (by simp)) ha e1
    obtain ⟨q1, q2, q3⟩ := key _ h hf (fun p hp => hlt _ (List.of_mem_zip hp).2) e
    have hlen : outs.length = vs.length := (applyJvp_length _ _ _ outs houts).trans (fwd_arity hfwd).symm
    have hall : ∀ {ids : List Nat} {vs outs : List (Raw T)}, List.Forall₂ (fun i v => ∃ n, h0[i]? = some n ∧ n.val = v) ids vs →
        outs.length = vs.length → (∀ p ∈ outs.zip ids, ∃ m, h0[p.2]? = some m ∧ p.1.array.length = m.val.array.length ∧ WF m.val) →
        List.Forall₂ (fun o t : Raw T => o.array.length = t.array.length) outs vs ∧ ∀ v ∈ vs, RawFits v := by
      intro ids vs outs hiv
      induction hiv generalizing outs with
      | nil =>
        intro hl _
        have : outs = [] := List.length_eq_zero_iff.1 hl
        subst this
        exact ⟨.nil, by simp⟩
      | @cons i v ids vs h1 h2 ih =>
        intro hl hz
        obtain ⟨o, outs, rfl⟩ : ∃ o outs', outs = o :: outs' := List.exists_cons_of_length_pos (by rw [hl]; simp)
        obtain ⟨m, hm, h3, h4⟩ := hz (o, i) (by simp)
        obtain ⟨n, hn, rfl⟩ := h1
        rw [hn] at hm
        cases hm
        obtain ⟨h5, h6⟩ := ih (by simpa using hl) fun p hp => hz p (by simp [hp])
        refine ⟨.cons h3 h5, ?_⟩
        intro v hv
        rcases List.mem_cons.1 hv with rfl | hv
        · exact ⟨GraphFits.get hfit0 hn, h4⟩
        · exact h6 v hv
    obtain ⟨h1, h2⟩ := hall (Heap.vals_eq_ok.1 hvs) hlen q1
    have ht : d.kind = .tanh → ∀ t ∈ vs, t.shape.prod < 2 ^ 32 := by
      intro hk v hv
      have h3 := fwd_arity hfwd
      rw [hk] at h3
      have h4 := Heap.vals_eq_ok.1 hvs
      obtain ⟨w, rfl⟩ := List.length_eq_one_iff.1 h3
      obtain ⟨j, hj⟩ := List.length_eq_one_iff.1 (h4.length_eq.trans h3)
      rw [hj] at h4
      simp only [List.forall₂_cons, List.Forall₂.nil, and_true] at h4
      obtain ⟨m, hm, rfl⟩ := h4
      simp at hv
      subst hv
      refine hfit0.tanh t j m.val ?_ (by simp [dataOf, hm])
      simp only [historyOf, hn, Option.map_some, hd]
      obtain ⟨ins, kind⟩ := d
      dsimp only at hj hk
      rw [hj, hk]
    obtain ⟨h5, h6⟩ := applyJvpU_ok hfwd (GraphFits.get hfit0 hn) h2 hg hgl ht houts h1
    rw [h5, R.bind_ok]
    exact q3 fun p hp => h6 p.1 (List.of_mem_zip hp).1

theorem backwardU_ok {h h' : Heap T} (hg : h.Good) {t : Nat} (e : backward h t = .ok h') (hf : GraphFits h') : backwardU .debug h t = .ok h' := by
  simp only [backward, R.bind_eq_ok] at e
  obtain ⟨n, hn, ⟨⟩, hl, d, hd, e⟩ := e
  simp only [backwardU, hn, hl, hd, R.bind_ok]
  rw [unwrapO_eq_ok] at hd
  rw [Heap.node_eq_ok] at hn
  rw [assertR_eq_ok, beq_iff_eq] at hl
  exact computeJvpU_ok hg _ (Frame.refl h) hn hd hf ⟨by simp [Raw.scalar, Fits], rfl⟩ (by rw [hl]; rfl) e

/-! ## All operations -/

theorem GraphFits.leaf {h : Heap T} {v : Raw T} (hf : GraphFits (h.leaf v).1) : Fits v.shape := GraphFits.last hf

theorem GraphFits.alloc {h : Heap T} {n : Node T} (hf : GraphFits (h.alloc n).1) : Fits n.val.shape := GraphFits.last hf

theorem unaryTU_back {h : Heap T} (hf : GraphFits h) (t : Nat) (f : T → T) (k : JvpKind) : Back (do
    let n ← h.node t
    let val ← genericUnaryOp (.raw n.val) f
    return h.alloc { val, grad := none, gradFn := some { inputs := [t], kind := k } }) (unaryTU .debug h t f k) :=
  Back.bind (Into.rfl' _) fun n hn => Back.bind (genericUnaryOpU_back (x := .raw n.val) (GraphFits.node hf hn) _) fun _ _ => Into.rfl' _

theorem RawBin.valU_if {l r : TL T} (hl : TLFits l) (hr : TLFits r) (k : RawBin) : BackIf (fun v => Fits v.shape) (k.val l r) (k.valU .debug l r) := by
  cases k with
  | add => exact addRawU_if hl hr
  | mul => exact .of (elementWiseMulU_back hl hr)
  | dot => exact .of (Into.rfl' _)
  | bmm => exact bmmRawU_if hl hr

theorem Op.runU_if {h : Heap T} (hg : h.Good) (hf : GraphFits h) {op : Op T} (ho : OpFits op) :
    BackIf GraphFits (op.run h) (op.runU .debug h) := by
  cases op with
  | new a s =>
    simp only [Op.run, Op.runU]
    refine .last fun v hv hP => ?_
    have h1 := GraphFits.leaf hP
    rw [(Post.new _ _ v hv).1] at h1
    rw [newU_back h1]; exact hv
  | filler s v =>
    intro h' e hP
    simp only [Op.run, R.pure_eq_ok] at e
    subst e
    have h1 := GraphFits.leaf hP
    rw [Raw.newWithFiller_eq] at h1
    simp only [Op.runU, newWithFillerU_back h1, R.bind_ok]
    rfl
  | scalar v => exact .of (Into.rfl' _)
  | default => exact .of (Into.rfl' _)
  | add l r =>
    intro h' e hP
    obtain ⟨id, e⟩ := map_fst_eq_ok e
    simp only [Op.runU, addTU_ok e hP, R.bind_ok]; rfl
  | sub l r =>
    intro h' e hP
    obtain ⟨id, e⟩ := map_fst_eq_ok e
    simp only [subT, R.bind_eq_ok] at e
    obtain ⟨⟨h1, n⟩, e1, e2⟩ := e
    have h2 : negTU .debug h r = .ok (h1, n) := (unaryTU_back hf r (fun v => -v) .neg).ok _ e1
    simp only [Op.runU, subTU, h2, R.bind_ok, addTU_ok e2 hP]
    rfl
  | neg t => exact .of (Back.bind (unaryTU_back hf t _ _) fun _ _ => Into.rfl' _)
  | mul l r =>
    refine .of (Back.bind (Back.bind (Into.rfl' _) fun n hn => Back.bind (Into.rfl' _) fun m hm => Back.bind ?_ fun _ _ => Into.rfl' _) fun _ _ => Into.rfl' _)
    exact mulRawU_back (r := .raw m.val) (GraphFits.node hf hn) (GraphFits.node hf hm)
  | relu t => exact .of (Back.bind (unaryTU_back hf t _ _) fun _ _ => Into.rfl' _)
  | tanh t => exact .of (Back.bind (unaryTU_back hf t _ _) fun _ _ => Into.rfl' _)
  | abs t => exact .of (Back.bind (unaryTU_back hf t _ _) fun _ _ => Into.rfl' _)
  | sum t =>
    refine .of (Back.bind (Back.bind (Into.rfl' _) fun n hn => Back.bind (TL.sumU_back (x := .raw n.val) (GraphFits.node hf hn)) fun _ _ => ?_) fun _ _ => Into.rfl' _)
    exact .step (newWithFillerU_back (GraphFits.node hf hn)) (Into.rfl' _)
  | bmm l r =>
    simp only [Op.run, Op.runU, bmmT, bmmTU, bind_assoc, pure_bind]
    exact .bind (Into.rfl' _) fun n hn => .bind (Into.rfl' _) fun m hm => .last ((bmmRawU_if (l := .raw n.val) (r := .raw m.val)
      (GraphFits.node hf hn) (GraphFits.node hf hm)).mono fun _ hP => GraphFits.alloc hP)
  | dot l r => exact .of (Into.rfl' _)
  | viewToTensor v =>
    simp only [Op.run, Op.runU, viewToTensorT, bind_assoc, pure_bind]
    exact .bind (VExpr.evalU_back hf ho) fun w hw => .of (Back.bind (TL.toTensorU_back (x := .view w) (VExpr.evalU_ok hf ho hw).2) fun _ _ => Into.rfl' _)
  | viewSum v =>
    simp only [Op.run, Op.runU, viewSumT, bind_assoc, pure_bind]
    exact .bind (VExpr.evalU_back hf ho) fun w hw => .of (Back.bind (TL.sumU_back (x := .view w) (VExpr.evalU_ok hf ho hw).2) fun _ _ => Into.rfl' _)
  | bmmView l v =>
    simp only [Op.run, Op.runU, bmmViewT, bmmViewTU, bind_assoc, pure_bind]
    refine .bind (Into.rfl' _) fun n hn => .bind (VExpr.evalU_back hf ho) fun w hw => ?_
    have hw' := (VExpr.evalU_ok hf ho hw).2
    intro h' e hP
    simp only [R.bind_eq_ok, R.pure_eq_ok] at e
    obtain ⟨val, h1, rv, h2, rfl⟩ := e
    have h3 : Fits val.shape := GraphFits.alloc hP
    simp only [bmmRawU_ok (l := .raw n.val) (r := .view w) (GraphFits.node hf hn) hw' h1 h3, (TL.toTensorU_back (x := .view w) hw').ok _ h2, R.bind_ok]
    rfl
  | viewBmm v r =>
    simp only [Op.run, Op.runU, viewBmmT, bind_assoc, pure_bind]
    exact .bind (VExpr.evalU_back hf ho) fun w hw => .bind (Into.rfl' _) fun m hm => .last ((bmmRawU_if (l := .view w) (r := .raw m.val)
      (VExpr.evalU_ok hf ho hw).2 (GraphFits.node hf hm)).mono fun _ hP => GraphFits.leaf hP)
  | viewBmmView v w =>
    simp only [Op.run, Op.runU, viewBmmViewT, bind_assoc, pure_bind]
    exact .bind (VExpr.evalU_back hf ho.1) fun x hx => .bind (VExpr.evalU_back hf ho.2) fun y hy => .last ((bmmRawU_if (l := .view x) (r := .view y)
      (VExpr.evalU_ok hf ho.1 hx).2 (VExpr.evalU_ok hf ho.2 hy).2).mono fun _ hP => GraphFits.leaf hP)
  | mulView l v =>
    simp only [Op.run, Op.runU, mulViewT, bind_assoc, pure_bind]
    exact .bind (Into.rfl' _) fun n hn => .bind (VExpr.evalU_back hf ho) fun w hw => .of (Back.bind (mulRawU_back (r := .view w)
      (GraphFits.node hf hn) (VExpr.evalU_ok hf ho hw).2) fun _ _ => Into.rfl' _)
  | rawBin k l r =>
    simp only [Op.run, Op.runU, rawBinT, bind_assoc, pure_bind]
    exact .bind (Opnd.evalU_back hf ho.1) fun x hx => .bind (Opnd.evalU_back hf ho.2) fun y hy => .last ((RawBin.valU_if
      (Opnd.evalU_ok hf ho.1 hx).2 (Opnd.evalU_ok hf ho.2 hy).2 k).mono fun _ hP => GraphFits.leaf hP)
  | rawSub l r =>
    simp only [Op.run, Op.runU, rawSubT, bind_assoc, pure_bind]
    refine .bind (Into.rfl' _) fun n hn => .bind (Into.rfl' _) fun m hm => .last fun v hv hP => ?_
    refine (subRawU_back (l := .raw n.val) (r := .raw m.val) (GraphFits.node hf hn) (GraphFits.node hf hm) ?_).ok v hv
    have h1 : Fits v.shape := GraphFits.leaf hP
    simp only [subRaw, R.bind_eq_ok] at hv
    obtain ⟨t, ht, hv⟩ := hv
    rw [(genericBinopRaw_post _ _ _ v hv).1] at h1
    rwa [show (TL.raw t).shape = (TL.raw m.val).shape from genericUnaryOp_shape ht] at h1
  | rawUnary f x =>
    simp only [Op.run, Op.runU, rawUnaryT, bind_assoc, pure_bind]
    exact .bind (Opnd.evalU_back hf ho) fun x hx => .of (Back.bind (genericUnaryOpU_back (Opnd.evalU_ok hf ho hx).2 _) fun _ _ => Into.rfl' _)
  | leftMul s x =>
    simp only [Op.run, Op.runU, leftMulT, bind_assoc, pure_bind]
    exact .bind (Opnd.evalU_back hf ho) fun x hx => .step (TL.leftScalarMulU_back (Opnd.evalU_ok hf ho hx).2.shape s) (.of (Into.rfl' _))
  | rightMul x s =>
    simp only [Op.run, Op.runU, rightMulT, bind_assoc, pure_bind]
    exact .bind (Opnd.evalU_back hf ho) fun x hx => .step (TL.rightScalarMulU_back (Opnd.evalU_ok hf ho hx).2.shape s) (.of (Into.rfl' _))
  | rawSum t =>
    refine .of (Back.bind (Back.bind (Into.rfl' _) fun n hn => Back.bind (TL.sumU_back (x := .raw n.val) (GraphFits.node hf hn)) fun _ _ => ?_) fun _ _ => Into.rfl' _)
    exact .step (newWithFillerU_back (GraphFits.node hf hn)) (Into.rfl' _)
  | deepClone t => exact .of (Into.rfl' _)
  | rawClone t => exact .of (Into.rfl' _)
  | updateGrad t g =>
    simp only [Op.run, Op.runU]
    exact .bind (Into.rfl' _) fun _ _ _ e hP => updateGradU_ok e hP
  | zeroGrad t => exact .of (Into.rfl' _)
  | backward t => exact fun _ e hP => backwardU_ok hg e hP

theorem runOpsU_ok : ∀ {ops : List (Op T)} {h h' : Heap T}, h.Good → runOps h ops = .ok h' → GraphFits h' → (∀ op ∈ ops, OpFits op) →
    runOpsU .debug h ops = .ok h' := by
  intro ops
  induction ops with
  | nil => intro h h' _ e _ _; exact e
  | cons op ops ih =>
    intro h h' hg e hP ho
    rw [runOps_cons, R.bind_eq_ok] at e
    obtain ⟨h1, e1, e2⟩ := e
    obtain ⟨f1, g1⟩ := op.run_frame hg e1
    have hP1 := GraphFits.frame (runOps_frame g1 e2).1 hP
    have h2 := Op.runU_if hg (GraphFits.frame f1 hP1) (ho op (by simp)) h1 e1 hP1
    show (op :: ops).foldlM (Op.runU .debug) h = _
    rw [List.foldlM_cons, h2, R.bind_ok]
    exact ih g1 e2 hP fun op hop => ho op (by simp [hop])

end

end RL
