import Verif.SpecTrainable
import Verif.Lemmas.SteadyTrain
import Verif.Props.MatMul
import Verif.Props.Indexing

/-!
# Which networks can be trained
-/

namespace RL

open Spec

variable {T : Type} [Zero T] [One T] [Add T] [Mul T] [Sub T] [Neg T] [LT T] [DecidableLT T] [LE T] [DecidableLE T] [RealFn T]
variable {h h' : Heap T}

/-- What `backward` needs of the operands of an operation. -/
def Cond (h : Heap T) (d : Deriv) : Prop :=
  (d.kind = .dot → ∀ i ∈ d.inputs, ∀ w, dataOf h i = some w → w.shape = [] ∨ w.shape = [1, 1]) ∧
  (d.kind = .bmm → ∀ i w, d.inputs[0]? = some i → dataOf h i = some w → w.shape.length = 2 ∨ ∀ x ∈ w.shape, x = 1)

/-- All operations the tensor was computed by can be differentiated. -/
def Fine (h : Heap T) (t : Nat) : Prop := ∀ a d, Feeds h a t → historyOf h a = some (some d) → Cond h d

/-- The tensor has this shape, and all it was computed from is sturdy. -/
structure Has (h : Heap T) (t : Nat) (s : List Nat) : Prop where
  shape : ∃ v, dataOf h t = some v ∧ v.shape = s
  sturdy : ∀ a, Feeds h a t → ∃ m, h[a]? = some m ∧ Sturdy h m

theorem Has.node {t : Nat} {s : List Nat} (hh : Has h t s) : ∃ n, h[t]? = some n ∧ n.val.shape = s ∧ WF n.val ∧ Pos s := by
  obtain ⟨v, h1, h2⟩ := hh.shape
  obtain ⟨n, hn, rfl⟩ := dataOf_eq.1 h1
  obtain ⟨m, hm, st⟩ := hh.sturdy t (.inl rfl)
  rw [hn] at hm
  cases hm
  exact ⟨n, hn, h2, st.wf, h2 ▸ st.pos⟩

theorem Has.lt {t : Nat} {s : List Nat} (hh : Has h t s) : t < h.length := by
  obtain ⟨n, hn, -⟩ := hh.node
  exact getElem?_lt hn

theorem Has.append (hg : h.Good) {t : Nat} {s : List Nat} (hh : Has h t s) (ns : Heap T) : Has (h ++ ns) t s := by
  have hl := hh.lt
  obtain ⟨⟨v, h1, h2⟩, h3⟩ := hh
  refine ⟨⟨v, by rw [(Frame.append h ns).dataOf hl]; exact h1, h2⟩, fun a ha => ?_⟩
  rw [(Frame.append h ns).feeds hg hl] at ha
  obtain ⟨m, h4, h5⟩ := h3 a ha
  exact ⟨m, by rw [List.getElem?_append_left (getElem?_lt h4), h4], h5.append ns⟩

theorem cond_append {d : Deriv} (hd : ∀ i ∈ d.inputs, i < h.length) (ns : Heap T) : Cond (h ++ ns) d ↔ Cond h d := by
  have key : ∀ i ∈ d.inputs, dataOf (h ++ ns) i = dataOf h i := fun i hi => (Frame.append h ns).dataOf (hd i hi)
  constructor
  · rintro ⟨c1, c2⟩
    exact ⟨fun hk i hi w hw => c1 hk i hi w (by rw [key i hi]; exact hw),
      fun hk i w hi hw => c2 hk i w hi (by rw [key i (List.mem_of_getElem? hi)]; exact hw)⟩
  · rintro ⟨c1, c2⟩
    exact ⟨fun hk i hi w hw => c1 hk i hi w (by rw [← key i hi]; exact hw),
      fun hk i w hi hw => c2 hk i w hi (by rw [← key i (List.mem_of_getElem? hi)]; exact hw)⟩

theorem inputs_lt (hg : h.Good) {a : Nat} {d : Deriv} (hd : historyOf h a = some (some d)) : ∀ i ∈ d.inputs, i < h.length := by
  obtain ⟨n, hn, hd⟩ := historyOf_eq.1 hd
  exact fun i hi => ((hg a n hn).older d hd i hi).trans (getElem?_lt hn)

theorem fine_append (hg : h.Good) {t : Nat} (ht : t < h.length) (ns : Heap T) : Fine (h ++ ns) t ↔ Fine h t := by
  have key : ∀ a, Feeds h a t → historyOf (h ++ ns) a = historyOf h a := fun a ha => (Frame.append h ns).historyOf (ha.lt hg ht)
  constructor
  · intro hf a d ha hd
    exact (cond_append (inputs_lt hg hd) ns).1 (hf a d (((Frame.append h ns).feeds hg ht).2 ha) (by rw [key a ha]; exact hd))
  · intro hf a d ha hd
    rw [(Frame.append h ns).feeds hg ht] at ha
    rw [key a ha] at hd
    exact (cond_append (inputs_lt hg hd) ns).2 (hf a d ha hd)

theorem Fine.feeds {a t : Nat} (hf : Fine h t) (ha : Feeds h a t) : Fine h a := fun b d hb hd => hf b d (hb.trans ha) hd

/-! ### a new tensor -/

theorem new_has (hg : h.Good) {n : Node T} {d : Deriv} (hn : Sturdy h n) (hd : n.gradFn = some d) (hi : ∀ i ∈ d.inputs, ∃ s, Has h i s) :
    Has (h ++ [n]) h.length n.val.shape := by
  have hn' : (h ++ [n])[h.length]? = some n := by simp
  refine ⟨⟨n.val, dataOf_eq.2 ⟨n, hn', rfl⟩, rfl⟩, fun a ha => ?_⟩
  rcases Spec.Feeds.cases ha hn' with rfl | ⟨d', hd', i, hm, hai⟩
  · exact ⟨n, hn', hn.append _⟩
  · rw [hd] at hd'
    cases hd'
    obtain ⟨s, hs⟩ := hi i hm
    exact (hs.append hg [n]).sturdy a hai

theorem new_feeds {n : Node T} {d : Deriv} (hd : n.gradFn = some d) {i : Nat} (hi : i ∈ d.inputs) : Feeds (h ++ [n]) i h.length :=
  .inr (isInput_of (n := n) (by simp) hd hi)

theorem new_fine (hg : h.Good) {n : Node T} {d : Deriv} (hd : n.gradFn = some d) (hi : ∀ i ∈ d.inputs, i < h.length) :
    Fine (h ++ [n]) h.length ↔ Cond h d ∧ ∀ i ∈ d.inputs, Fine h i := by
  have hn' : (h ++ [n])[h.length]? = some n := by simp
  constructor
  · intro hf
    exact ⟨(cond_append hi [n]).1 (hf h.length d (.inl rfl) (historyOf_eq.2 ⟨n, hn', hd⟩)),
      fun i hm => (fine_append hg (hi i hm) [n]).1 (hf.feeds (new_feeds hd hm))⟩
  · rintro ⟨hc, hf⟩ a e ha he
    rcases Spec.Feeds.cases ha hn' with rfl | ⟨d', hd', i, hm, hai⟩
    · obtain ⟨m, hm, he⟩ := historyOf_eq.1 he
      rw [hn'] at hm
      cases hm
      rw [hd] at he
      cases he
      exact (cond_append hi [n]).2 hc
    · rw [hd] at hd'
      cases hd'
      exact (fine_append hg (hi i hm) [n]).2 (hf i hm) a e hai he

theorem cond_other {d : Deriv} (h1 : d.kind ≠ .dot) (h2 : d.kind ≠ .bmm) : Cond h d := ⟨fun h0 => absurd h0 h1, fun h0 => absurd h0 h2⟩

/-- The result of an operation: a tensor of shape `s` at the end of `h'`, computed from `is`. -/
structure Made (h : Heap T) (is : List Nat) (h' : Heap T) (z : Nat) (s : List Nat) (c : Prop) : Prop where
  append : ∃ ns, h' = h ++ ns
  reach : Reachable h'
  has : Has h' z s
  feeds : ∀ i ∈ is, Feeds h' i z
  fine : Fine h' z ↔ c ∧ ∀ i ∈ is, Fine h i

theorem Made.of_alloc {n : Node T} {d : Deriv} {c : Prop} (hr : Reachable h) (hr' : Reachable (h ++ [n])) (hn : Sturdy h n) (hd : n.gradFn = some d)
    (hi : ∀ i ∈ d.inputs, ∃ s, Has h i s) (hc : Cond h d ↔ c) : Made h d.inputs (h ++ [n]) h.length n.val.shape c := by
  refine ⟨⟨_, rfl⟩, hr', new_has hr.good hn hd hi, fun i hm => new_feeds hd hm, ?_⟩
  rw [new_fine hr.good hd (fun i hm => (hi i hm).choose_spec.lt), hc]

/-! ### the operations -/

theorem addT_which (hr : Reachable h) {l r : Nat} {s t : List Nat} (hl : Has h l s) (hrr : Has h r t) :
    ((∃ p, addT h l r = .ok p) ↔ Compatible s t) ∧
    ∀ h' z, addT h l r = .ok (h', z) → Made h [l, r] h' z (bshape s t) True := by
  obtain ⟨ln, n1, rfl, n3, n4⟩ := hl.node
  obtain ⟨rn, m1, rfl, m3, m4⟩ := hrr.node
  refine ⟨⟨?_, fun hc => ?_⟩, fun h' z e => ?_⟩
  · rintro ⟨⟨h', z⟩, e⟩
    obtain ⟨_, _, v, e1, e2, e3, -⟩ := addT_inv e
    rw [n1] at e1; cases e1
    rw [m1] at e2; cases e2
    exact (genericBinopRaw_inv (l := .raw ln.val) (r := .raw rn.val) n3 m3 n4 m4 e3).1
  · obtain ⟨v, hv⟩ := genericBinopRaw_raw n3 m3 n4 m4 (fun a b => a + b) hc
    simp only [addT, Heap.node_eq_ok.2 n1, Heap.node_eq_ok.2 m1, R.bind_ok, addRaw, hv]
    exact ⟨_, rfl⟩
  · have hr' : Reachable h' := hr.run (ops := [.add l r]) (by simp [runOps, Op.run, e])
    obtain ⟨_, _, v, e1, e2, e3, rfl, rfl⟩ := addT_inv e
    rw [n1] at e1; cases e1
    rw [m1] at e2; cases e2
    obtain ⟨q1, q2, q3, -⟩ := genericBinopRaw_inv (l := .raw ln.val) (r := .raw rn.val) n3 m3 n4 m4 e3
    have q2' : v.shape = bshape ln.val.shape rn.val.shape := q2
    have hp : Pos v.shape := by rw [q2', ← maxShape_eq_bshape n4 m4 q1]; exact maxShape_pos n4 m4
    have := Made.of_alloc (c := True) hr hr' (n := ⟨v, none, some ⟨[l, r], .add⟩⟩) ⟨q3, hp, nofun⟩ rfl (by
      intro i hi
      simp only [List.mem_cons, List.not_mem_nil, or_false] at hi
      rcases hi with rfl | rfl
      · exact ⟨_, hl⟩
      · exact ⟨_, hrr⟩) (iff_true_intro (cond_other (by simp) (by simp)))
    rw [← q2']
    exact this

theorem unary_which (hr : Reachable h) {t : Nat} {s : List Nat} (ht : Has h t s) (k : JvpKind) (hk : k ≠ .dot ∧ k ≠ .bmm) (op : T → T)
    (f : Heap T → Nat → R (Heap T × Nat)) (hf : f = fun h t => do
      let n ← h.node t
      let val ← genericUnaryOp (.raw n.val) op
      return h.alloc { val, grad := none, gradFn := some { inputs := [t], kind := k } })
    (hrun : ∀ h' z, f h t = .ok (h', z) → Reachable h') :
    ∃ h' z, f h t = .ok (h', z) ∧ Made h [t] h' z s True := by
  obtain ⟨n, n1, rfl, n3, n4⟩ := ht.node
  have e0 := genericUnaryOp_eq (x := .raw n.val) n3 (.inl ⟨_, rfl⟩) op
  have e : f h t = .ok (h ++ [⟨⟨(elems (.raw n.val)).map op, n.val.shape⟩, none, some ⟨[t], k⟩⟩], h.length) := by
    rw [hf]
    simp only [Heap.node_eq_ok.2 n1, R.bind_ok, e0]
    rfl
  refine ⟨_, _, e, ?_⟩
  exact Made.of_alloc (c := True) hr (hrun _ _ e) (n := ⟨⟨(elems (.raw n.val)).map op, n.val.shape⟩, none, some ⟨[t], k⟩⟩)
    ⟨genericUnaryOp_post _ _ _ e0, n4, nofun⟩ rfl (by
      intro i hi
      simp only [List.mem_cons, List.not_mem_nil, or_false] at hi
      subst hi
      exact ⟨_, ht⟩) (iff_true_intro (cond_other hk.1 hk.2))

theorem negT_which (hr : Reachable h) {t : Nat} {s : List Nat} (ht : Has h t s) : ∃ h' z, negT h t = .ok (h', z) ∧ Made h [t] h' z s True :=
  unary_which hr ht .neg (by simp) _ negT rfl fun h' z e => hr.run (ops := [.neg t]) (by simp [runOps, Op.run, e])

theorem absT_which (hr : Reachable h) {t : Nat} {s : List Nat} (ht : Has h t s) : ∃ h' z, absT h t = .ok (h', z) ∧ Made h [t] h' z s True :=
  unary_which hr ht .abs (by simp) _ absT rfl fun h' z e => hr.run (ops := [.abs t]) (by simp [runOps, Op.run, e])

theorem act_which (hr : Reachable h) {t : Nat} {s : List Nat} (ht : Has h t s) {f : Activation T} (hf : StdAct f) :
    ∃ h' z, f h t = .ok (h', z) ∧ Made h [t] h' z s True := by
  rcases hf with rfl | rfl | rfl
  · exact ⟨h, t, rfl, ⟨[], by simp⟩, hr, ht, by simp [Feeds], by simp⟩
  · exact unary_which hr ht .relu (by simp) _ reluT rfl fun h' z e => hr.run (ops := [.relu t]) (by simp [runOps, Op.run, e])
  · exact unary_which hr ht .tanh (by simp) _ tanhT rfl fun h' z e => hr.run (ops := [.tanh t]) (by simp [runOps, Op.run, e])

theorem sumT_which (hr : Reachable h) {t : Nat} {s : List Nat} (ht : Has h t s) :
    ∃ h' z n, sumT h t = .ok (h', z) ∧ Made h [t] h' z [] True ∧ h'[z]? = some n ∧ n.gradFn = some ⟨[t], .sum⟩ := by
  obtain ⟨n, n1, rfl, n3, n4⟩ := ht.node
  obtain ⟨v, hv⟩ : ∃ v, (TL.raw n.val).sum = .ok v := ⟨_, rfl⟩
  have e : sumT h t = .ok (h ++ [leafNode (Raw.newWithFiller n.val.shape 1)] ++ [⟨v, some h.length, some ⟨[t], .sum⟩⟩], h.length + 1) := by
    simp only [sumT, Heap.node_eq_ok.2 n1, R.bind_ok, hv]
    simp [Heap.leaf, Heap.alloc, leafNode]
  have r1 : Reachable (h ++ [leafNode (Raw.newWithFiller n.val.shape 1)]) := hr.run (ops := [.filler n.val.shape 1]) rfl
  have r2 : Reachable (h ++ [leafNode (Raw.newWithFiller n.val.shape 1)] ++ [⟨v, some h.length, some ⟨[t], .sum⟩⟩]) :=
    hr.run (ops := [.sum t]) (by simp [runOps, Op.run, e])
  obtain ⟨q1, q2⟩ := sum_post _ v hv
  have ht' := ht.append hr.good [leafNode (Raw.newWithFiller n.val.shape 1)]
  have := Made.of_alloc (c := True) r1 r2 (n := ⟨v, some h.length, some ⟨[t], .sum⟩⟩) (d := ⟨[t], .sum⟩) (by
    refine ⟨q2, by rw [q1]; intro x hx; simp at hx, fun o ho => ?_⟩
    cases ho
    refine ⟨leafNode (Raw.newWithFiller n.val.shape 1), by simp, Raw.newWithFiller_wf _ _, .inr ⟨q1, ?_⟩⟩
    show Pos (Raw.newWithFiller n.val.shape (1 : T)).shape
    rw [Raw.newWithFiller_eq]
    exact n4) rfl (by
      intro i hi
      simp only [List.mem_cons, List.not_mem_nil, or_false] at hi
      subst hi
      exact ⟨_, ht'⟩) (iff_true_intro (cond_other (by simp) (by simp)))
  refine ⟨_, _, ⟨v, some h.length, some ⟨[t], .sum⟩⟩, e, ⟨⟨_, by rw [List.append_assoc]⟩, r2, ?_, ?_, ?_⟩, by simp, rfl⟩
  · have := this.has
    rw [show (⟨v, some h.length, some ⟨[t], .sum⟩⟩ : Node T).val.shape = [] from q1] at this
    simpa using this
  · simpa using this.feeds
  · have := this.fine
    simp only [List.mem_cons, List.not_mem_nil, or_false, forall_eq, true_and, List.length_append, List.length_singleton] at this ⊢
    rw [this, fine_append hr.good ht.lt]

/-! ### matrix products -/

/-- The shape `p` of the product of a tensor of shape `s` and a matrix with `k` rows and `n` columns. -/
def ProdShape (s : List Nat) (k n : Nat) (p : List Nat) : Prop :=
  (∃ m, s = [m, k] ∧ p = [m, n]) ∨ (3 ≤ s.length ∧ s.getLast? = some k ∧ ∃ a b, s[0]? = some a ∧ s[1]? = some b ∧ p = [a, b, n])

theorem bmmRaw_ones {l r : Raw T} (hl : WF l) (hr : WF r) {n : Nat} (h3 : 3 ≤ l.shape.length) (h1 : ∀ d ∈ l.shape, d = 1) (hrs : r.shape = [1, n]) :
    ∃ t, bmmRaw (.raw l) (.raw r) = .ok t := by
  have pl : Pos l.shape := fun d hd => by rw [h1 d hd]; exact Nat.one_pos
  have hg : ∀ idx : List Nat, idx.length = l.shape.length → ∃ v, l.get idx = .ok v := by
    intro idx hi
    have hrd : Readable l.shape idx := by
      rw [readable_of_length hi.symm]
      clear h3 pl hl
      generalize l.shape = s at h1 hi
      induction s generalizing idx with
      | nil => cases idx with
        | nil => exact .nil
        | cons => simp at hi
      | cons d s ih => cases idx with
        | nil => simp at hi
        | cons i idx => exact .cons (.inl (h1 d (by simp))) (ih idx (fun d hd => h1 d (by simp [hd])) (by simpa using hi))
    obtain ⟨v, -, hv⟩ := C03_broadcast_read l hl pl idx hrd
    exact ⟨v, hv⟩
  obtain ⟨v0, -⟩ := hg l.shape rfl
  have : Nonempty T := ⟨v0⟩
  choose! f hf using hg
  have hli : ∀ p i, (bmmLeftIndex (.raw l) p i).length = l.shape.length := by
    intro p i
    by_cases hc : l.shape.length = 3 <;> simp [bmmLeftIndex, hc]
  have s0 : l.shape[0]? = some 1 := by rw [List.getElem?_eq_getElem (by omega), h1 _ (List.getElem_mem _)]
  have s1 : l.shape[1]? = some 1 := by rw [List.getElem?_eq_getElem (by omega), h1 _ (List.getElem_mem _)]
  have sl : l.shape[l.shape.length - 1]? = some 1 := by rw [List.getElem?_eq_getElem (by omega), h1 _ (List.getElem_mem _)]
  have key := bmmLoop_eq (nb := 1) (nrow := 1) (ncol := n)
    (f := fun p i j => bmmEntry (.raw l) (.raw r) (bmmLeftIndex (.raw l) p i) r.shape 1 j)
    (g := fun p i j => dotFold 1 (fun kk => f ((bmmLeftIndex (.raw l) p i).set ((bmmLeftIndex (.raw l) p i).length - 1) kk))
      (fun kk => ent (.raw r) [kk, j]))
    (fun p _ i hi j hj => bmmEntry_eq
      (fun kk hk => hf _ (by rw [List.length_set, hli]))
      (fun kk hk => by
        rw [hrs]
        exact (ent_get (x := .raw r) hr (by rw [TL.shape_raw, hrs]; exact inRange2.2 ⟨hk, hj⟩)).1))
  have hrs0 : idxR (TL.raw r).shape 0 = .ok 1 := by simp [hrs, idxR]
  have hch : bmmChecks (.raw l) (.raw r) = .ok () := by
    simp only [bmmChecks, TL.shape_raw, hrs, idxR]
    simp [sl, show 2 ≤ l.shape.length by omega]
  have hsh : bmmShape (.raw l) (.raw r) = .ok [1, 1, n] := by
    simp only [bmmShape, TL.shape_raw, hrs, idxR]
    simp [s0, s1, show l.shape.length ≠ 2 by omega]
  unfold bmmRaw
  rw [hch, hsh]
  simp only [R.bind_ok, hrs0]
  simp only [R.bind_ok, idxR, List.getElem?_cons_zero, List.getElem?_cons_succ, TL.shape_raw]
  rw [key]
  simp [show l.shape.length ≠ 2 by omega]

theorem bmmT_which (hr : Reachable h) {l r : Nat} {s t : List Nat} (hl : Has h l s) (hrr : Has h r t) :
    (∀ h' z, bmmT h l r = .ok (h', z) → ∃ k n p, t = [k, n] ∧ ProdShape s k n p ∧ Made h [l, r] h' z p (s.length = 2 ∨ ∀ d ∈ s, d = 1)) ∧
    ∀ k n, t = [k, n] → (∃ m, s = [m, k]) ∨ 3 ≤ s.length ∧ k = 1 ∧ (∀ d ∈ s, d = 1) → ∃ q, bmmT h l r = .ok q := by
  obtain ⟨ln, n1, rfl, n3, n4⟩ := hl.node
  obtain ⟨rn, m1, rfl, m3, m4⟩ := hrr.node
  refine ⟨fun h' z e => ?_, fun k n ht hs => ?_⟩
  · have hr' : Reachable h' := hr.run (ops := [.bmm l r]) (by simp [runOps, Op.run, e])
    simp only [bmmT, R.bind_eq_ok, Heap.node_eq_ok, R.pure_eq_ok, Heap.alloc] at e
    obtain ⟨_, e1, _, e2, v, hv, e⟩ := e
    rw [n1] at e1; cases e1
    rw [m1] at e2; cases e2
    cases e
    obtain ⟨k, n, hkn⟩ : ∃ k n, rn.val.shape = [k, n] := by
      have := (bmmRaw_shape hv).2.1
      rw [TL.shape_raw] at this
      match hh : rn.val.shape, this with
      | [k, n], _ => exact ⟨k, n, rfl⟩
    have hps : ProdShape ln.val.shape k n v.shape := by
      obtain ⟨b1, b2, ⟨k', b3, b4⟩, b5⟩ := bmmRaw_shape hv
      simp only [TL.shape_raw, hkn] at b1 b3 b4 b5
      simp only [List.getElem?_cons_zero, Option.some.injEq] at b4
      subst b4
      rcases b5 with ⟨a, n', c1, c2, c3, -, c4⟩ | ⟨a, b, n', c1, c2, c3, c4, -, c5⟩
      · left
        simp only [List.getElem?_cons_succ, List.getElem?_cons_zero, Option.some.injEq] at c2
        subst c2
        match hh : ln.val.shape, c3 with
        | [m, k'], _ =>
          rw [hh] at b3 c1
          simp only [List.getElem?_cons_zero, Option.some.injEq] at c1
          subst c1
          simp only [List.getLast?_cons_cons, List.getLast?_singleton, Option.some.injEq] at b3
          subst b3
          exact ⟨_, rfl, c4⟩
      · right
        simp only [List.getElem?_cons_succ, List.getElem?_cons_zero, Option.some.injEq] at c3
        subst c3
        exact ⟨by omega, b3, a, b, c1, c2, c5⟩
    refine ⟨k, n, v.shape, hkn, hps, ?_⟩
    have hp : Pos v.shape := by
      have hn : 0 < n := m4 n (by simp [hkn])
      rcases hps with ⟨m, c1, c2⟩ | ⟨-, -, a, b, c1, c2, c3⟩
      · rw [c2]
        have : 0 < m := n4 m (by simp [c1])
        intro d hd
        simp only [List.mem_cons, List.not_mem_nil, or_false] at hd
        rcases hd with rfl | rfl <;> assumption
      · rw [c3]
        have : 0 < a := n4 a (List.mem_of_getElem? c1)
        have : 0 < b := n4 b (List.mem_of_getElem? c2)
        intro d hd
        simp only [List.mem_cons, List.not_mem_nil, or_false] at hd
        rcases hd with rfl | rfl | rfl <;> assumption
    refine Made.of_alloc hr hr' (n := ⟨v, none, some ⟨[l, r], .bmm⟩⟩) (d := ⟨[l, r], .bmm⟩) ⟨bmmRaw_post _ _ v hv, hp, nofun⟩ rfl (by
      intro i hi
      simp only [List.mem_cons, List.not_mem_nil, or_false] at hi
      rcases hi with rfl | rfl
      · exact ⟨_, hl⟩
      · exact ⟨_, hrr⟩) ⟨fun hc => hc.2 rfl l ln.val rfl (dataOf_eq.2 ⟨ln, n1, rfl⟩), fun hc => ⟨nofun, fun _ i w hi hw => ?_⟩⟩
    simp only [List.getElem?_cons_zero, Option.some.injEq] at hi
    subst hi
    rw [dataOf, n1] at hw
    cases hw
    exact hc
  · obtain ⟨v, hv⟩ : ∃ v, bmmRaw (.raw ln.val) (.raw rn.val) = .ok v := by
      rcases hs with ⟨m, hs⟩ | ⟨h3, rfl, h1⟩
      · obtain ⟨v, hv, -⟩ := C20_accepts_partial (.raw ln.val) (.raw rn.val) n3 m3 (.inl (by rw [TL.shape_raw, hs]; rfl))
          (by rw [TL.shape_raw, ht]; rfl) (by rw [TL.shape_raw, TL.shape_raw, ht, hs]; rfl)
        exact ⟨v, hv⟩
      · exact bmmRaw_ones n3 m3 h3 h1 ht
    simp only [bmmT, Heap.node_eq_ok.2 n1, Heap.node_eq_ok.2 m1, R.bind_ok, hv]
    exact ⟨_, rfl⟩

end RL
