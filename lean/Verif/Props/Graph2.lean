import Verif.Props.Graph
import Verif.Lemmas.Fresh
import Verif.Lemmas.JvpSucc

/-!
# Properties of the autograd graph (C27, C38-C41, C43)
-/

namespace RL

open Spec

variable {T : Type}

attribute [local instance] Test.intFn

theorem historyOf_eq {h : Heap T} {t : Nat} {o : Option Deriv} : historyOf h t = some o ↔ ∃ n, h[t]? = some n ∧ n.gradFn = o := by
  simp [historyOf, Option.map_eq_some_iff]

theorem dataOf_eq {h : Heap T} {t : Nat} {v : Raw T} : dataOf h t = some v ↔ ∃ n, h[t]? = some n ∧ n.val = v := by
  simp [dataOf, Option.map_eq_some_iff]

section
variable [Zero T] [One T] [Add T] [Mul T] [Sub T] [Neg T] [LT T] [DecidableLT T] [LE T] [DecidableLE T] [RealFn T]

/-! ## deep_clone (C27) -/

/-- C27: `deep_clone` succeeds on every tensor; the clone has the same data, no gradient and no history, and nothing else
changes. -/
theorem C27_clone (h : Heap T) (t : Nat) (v : Raw T) (ht : dataOf h t = some v) :
    ∃ h', (Op.deepClone t).run h = .ok h' ∧ dataOf h' h.length = some v ∧ gradOf h' h.length = none ∧
      historyOf h' h.length = some none ∧ ∀ s, s < h.length → h'[s]? = h[s]? := by
  obtain ⟨n, hn, rfl⟩ := dataOf_eq.1 ht
  refine ⟨h ++ [{ n with gradFn := none, grad := none }], ?_, ?_, ?_, ?_, fun s hs => List.getElem?_append_left hs⟩
  · simp only [Op.run, deepCloneT, Heap.node_eq_ok.2 hn, R.bind_ok]; rfl
  · simp [dataOf]
  · simp [gradOf]
  · simp [historyOf]

/-- C27: whatever is done with the clone and with tensors created after it (and with nothing older), no older tensor - in
particular not the original - changes: not its data, history, gradient tensor, nor what this gradient tensor holds. -/
theorem C27_detached (h h1 h2 : Heap T) (t : Nat) (hr : Reachable h) (e1 : (Op.deepClone t).run h = .ok h1)
    (ops : List (Op T)) (hops : ∀ op ∈ ops, ∀ i ∈ op.ids, h.length ≤ i) (e2 : runOps h1 ops = .ok h2) (s : Nat)
    (hs : s < h.length) : h2[s]? = h[s]? ∧ gradOf h2 s = gradOf h s := by
  obtain ⟨_, e⟩ := map_fst_eq_ok e1
  simp only [deepCloneT, R.bind_eq_ok, Heap.node_eq_ok, R.pure_eq_ok, Heap.alloc] at e
  obtain ⟨n, hn, e⟩ := e
  cases e
  have hc : Closed h.length (h ++ [{ n with gradFn := none, grad := none }]) := by
    refine ⟨by simp, fun i m hm hi => ?_⟩
    have hil := getElem?_lt hm
    have : i = h.length := by simp at hil; omega
    subst this
    simp at hm
    subst hm
    simp
  have hg1 := (Op.run_frame hr.good e1).2
  have hk := runOps_keeps hg1 hc hops e2
  have h1s : h2[s]? = h[s]? := (hk.2 s hs).trans (List.getElem?_append_left hs)
  have hf := (Op.run_frame hr.good e1).1.trans (runOps_frame hg1 e2).1
  exact ⟨h1s, gradOf_congr hr.good hf (List.getElem?_eq_getElem hs) (by rw [h1s, List.getElem?_eq_getElem hs])⟩

/-- C27, test: the clone's gradient is set, the original's is not. -/
example : ∃ h1 h2 : Heap Int, runOps [] [.new [1, 2] [2], .deepClone 0] = .ok h1 ∧ runOps h1 [.sum 1, .backward 3] = .ok h2 ∧
    gradOf h2 1 = some ⟨[1, 1], [2]⟩ ∧ gradOf h2 0 = none := ⟨_, _, rfl, rfl, rfl, rfl⟩

/-! ## shape of gradients (C38) -/

/-- C38, full statement. It is false: see `C38_false`. -/
def C38_statement (T : Type) [Zero T] [One T] [Add T] [Mul T] [Sub T] [Neg T] [LT T] [DecidableLT T] [LE T] [DecidableLE T]
    [RealFn T] : Prop :=
  ∀ (h : Heap T), Reachable h → ∀ t v g, dataOf h t = some v → gradOf h t = some g →
    g.shape = v.shape ∧ g.array.length = v.array.length

/-- C38 does not hold: the fresh result of `sum` has a gradient with the shape of the summed tensor. -/
theorem C38_false : ¬ C38_statement Int := by
  intro hs
  have hr : Reachable ([⟨⟨[5, 7], [2]⟩, none, none⟩, ⟨⟨[1, 1], [2]⟩, none, none⟩, ⟨⟨[12], []⟩, some 1, some ⟨[0], .sum⟩⟩] : Heap Int) :=
    ⟨[.new [5, 7] [2], .sum 0], by decide⟩
  exact absurd (hs _ hr 2 ⟨[12], []⟩ ⟨[1, 1], [2]⟩ rfl rfl).1 (by decide)

/-- C38 for all tensors other than results of `sum`, in histories in which the user calls `update_grad` only with tensors of the
right shape and size and does not turn the result of `RawTensor::sum` into a tensor. Missing: results of `sum` (false), and
arbitrary user-provided gradients (which are stored unchecked). -/
theorem C38_partial (ops : List (Op T)) (h : Heap T) (e : runOps [] ops = .ok h)
    (huser : ∀ pre t g post hp a b, ops = pre ++ Op.updateGrad t g :: post → runOps [] pre = .ok hp → dataOf hp t = some a →
      dataOf hp g = some b → b.shape = a.shape ∧ WF b) (hraw : ∀ s, Op.rawSum s ∉ ops)
    (t : Nat) (v g : Raw T) (hv : dataOf h t = some v) (hsum : ∀ d, historyOf h t = some (some d) → d.kind ≠ .sum)
    (hg : gradOf h t = some g) : g.shape = v.shape ∧ WF g := by
  let Inv : Heap T → Prop := fun h => ∀ t n, h[t]? = some n → (∀ d, n.gradFn = some d → d.kind ≠ .sum) →
    ∀ g, gradOf h t = some g → g.shape = n.val.shape ∧ WF g
  suffices H : ∀ (ops pre : List (Op T)) (h0 h : Heap T), runOps [] pre = .ok h0 → Inv h0 → runOps h0 ops = .ok h →
      (∀ pre' t g post hp a b, pre ++ ops = pre' ++ Op.updateGrad t g :: post → runOps [] pre' = .ok hp → dataOf hp t = some a →
        dataOf hp g = some b → b.shape = a.shape ∧ WF b) → (∀ s, Op.rawSum s ∉ ops) → Inv h by
    have hi := H ops [] [] h rfl (by intro t n hn; simp at hn) e (by simpa using huser) hraw
    obtain ⟨n, hn, rfl⟩ := dataOf_eq.1 hv
    exact hi t n hn (fun d hd => hsum d (by simp [historyOf, hn, hd])) g hg
  intro ops
  induction ops with
  | nil => intro pre h0 h _ hi e _ _; cases e; exact hi
  | cons op ops ih =>
    intro pre h0 h e0 hi e hs hraw
    rw [runOps_cons, R.bind_eq_ok] at e
    obtain ⟨h1, e1, e2⟩ := e
    have hg0 := runOps_good e0
    refine ih (pre ++ [op]) h1 h (by rw [runOps_append, e0, R.bind_ok, runOps_cons, e1]; rfl) ?_ e2 (by simpa using hs)
      (fun s hm => hraw s (List.mem_cons_of_mem _ hm))
    obtain ⟨hf, hg1⟩ := Op.run_frame hg0 e1
    cases hop : op.isGrad with
    | false =>
      obtain ⟨ns, rfl, hns⟩ := Op.run_fresh hop e1
      intro t n hn hsum g hg
      rcases Nat.lt_or_ge t h0.length with hlt | hge
      · have hn0 := hn
        rw [List.getElem?_append_left hlt] at hn0
        rw [gradOf_congr hg0 hf hn0 hn] at hg
        exact hi t n hn0 hsum g hg
      · rw [List.getElem?_append_right hge] at hn
        have hmem : n.links ∈ op.fresh h0 := by rw [← hns]; exact List.mem_map_of_mem (List.mem_of_getElem? hn)
        have hn' : (h0 ++ ns)[t]? = some n := by rw [List.getElem?_append_right hge, hn]
        have hnone : n.grad = none → g.shape = n.val.shape ∧ WF g := by
          intro h
          rw [gradOf_none hn' h] at hg
          cases hg
        cases op with
        | sum s =>
          simp [Op.fresh, Node.links] at hmem
          rcases hmem with h | h
          · exact hnone h.1
          · exact absurd rfl (hsum _ h.2)
        | rawSum s => exact absurd (by simp) (hraw s)
        | rawClone s =>
          obtain ⟨_, e1⟩ := map_fst_eq_ok e1
          obtain ⟨m, hm, e1, -⟩ := rawCloneT_inv e1
          have := List.append_cancel_left e1
          subst this
          have : t = h0.length := by have := getElem?_lt hn'; simp at this; omega
          subst this
          simp at hn
          subst hn
          refine hi s m hm hsum g ?_
          rw [← hg]
          cases hmg : m.grad with
          | none => rw [gradOf_none hm hmg, gradOf_none hn' hmg]
          | some o =>
            have hol := (hg0 s m hm).grad o hmg
            have ho := List.getElem?_eq_getElem hol
            rw [gradOf_some hm hmg ho, gradOf_some hn' hmg (by rw [List.getElem?_append_left hol]; exact ho)]
        | _ =>
          simp [Op.fresh, Node.links] at hmem <;> first
            | exact hnone hmem.1
            | (rcases hmem with h | h <;> exact hnone h.1)
    | true =>
      cases op <;> simp only [Op.isGrad] at hop <;> try (cases hop; done)
      case updateGrad s c =>
        simp only [Op.run, R.bind_eq_ok, Heap.node_eq_ok] at e1
        obtain ⟨gn, hgn, e1⟩ := e1
        intro t n hn hsum g hg
        by_cases hts : t = s
        · subst hts
          obtain ⟨m, hm, ⟨hmg, rfl⟩ | ⟨o, on, gn', v, hmg, ho, hgn', hv, rfl⟩⟩ := updateGrad_inv e1
          · have hlt := getElem?_lt hm
            rw [List.getElem?_set_self hlt] at hn
            cases hn
            obtain ⟨r1, r2⟩ := hs pre t c ops h0 m.val gn.val rfl e0 (by simp [dataOf, hm]) (by simp [dataOf, hgn])
            have hgn1 := (Frame.set hm (some c)).get hgn
            obtain ⟨_, hgn1⟩ := hgn1
            rw [gradOf_some (List.getElem?_set_self hlt) rfl hgn1] at hg
            cases hg
            exact ⟨r1, r2⟩
          · have hlt := getElem?_lt hm
            rw [hgn] at hgn'
            cases hgn'
            obtain ⟨r1, r2⟩ := hs pre t c ops h0 m.val gn.val rfl e0 (by simp [dataOf, hm]) (by simp [dataOf, hgn])
            have hlt2 : t < (h0 ++ [(⟨v, none, some ⟨[o, c], .add⟩⟩ : Node T)]).length := by simp; omega
            rw [List.getElem?_set_self hlt2] at hn
            cases hn
            have hv0 : ((h0 ++ [(⟨v, none, some ⟨[o, c], .add⟩⟩ : Node T)]).set t { m with grad := some h0.length })[h0.length]? =
                some (⟨v, none, some ⟨[o, c], .add⟩⟩ : Node T) := by
              rw [List.getElem?_set_ne (by omega)]; simp
            rw [gradOf_some (List.getElem?_set_self hlt2) rfl hv0] at hg
            cases hg
            obtain ⟨f1, f2⟩ := hi t m hm hsum on.val (gradOf_some hm hmg ho)
            obtain ⟨_, rfl⟩ := addRaw_same_inv f2 r2 (f1.trans r1.symm) hv
            exact ⟨f1, zipWith_wf f2 (by rw [f1, ← r1]; exact r2)⟩
        · have hlt : t < h0.length ∨ h0.length ≤ t := Nat.lt_or_ge _ _
          obtain ⟨m, hm, ⟨hmg, rfl⟩ | ⟨o, on, gn', v, hmg, ho, hgn', hv, rfl⟩⟩ := updateGrad_inv e1
          · have hn0 := hn
            rw [List.getElem?_set_ne (Ne.symm hts)] at hn0
            rw [gradOf_congr hg0 hf hn0 hn] at hg
            exact hi t n hn0 hsum g hg
          · have hn0 := hn
            rw [List.getElem?_set_ne (Ne.symm hts)] at hn0
            rcases hlt with hlt | hge
            · rw [List.getElem?_append_left hlt] at hn0
              rw [gradOf_congr hg0 hf hn0 hn] at hg
              exact hi t n hn0 hsum g hg
            · have : t = h0.length := by have := getElem?_lt hn0; simp at this; omega
              subst this
              simp at hn0
              subst hn0
              rw [gradOf_none hn rfl] at hg
              cases hg
      case zeroGrad s =>
        obtain ⟨m, hm, rfl⟩ := zeroGrad_inv e1
        intro t n hn hsum g hg
        by_cases hts : t = s
        · subst hts
          rw [List.getElem?_set_self (getElem?_lt hm)] at hn
          cases hn
          rw [gradOf_none (List.getElem?_set_self (getElem?_lt hm)) rfl] at hg
          cases hg
        · have hn0 := hn
          rw [List.getElem?_set_ne (Ne.symm hts)] at hn0
          rw [gradOf_congr hg0 hf hn0 hn] at hg
          exact hi t n hn0 hsum g hg
      case backward l =>
        intro t n hn hsum g hg
        rcases Nat.lt_or_ge t h0.length with hlt | hge
        · obtain ⟨gr, hgr⟩ := hf.get (List.getElem?_eq_getElem hlt)
          rw [hn] at hgr
          have hval : n.val = h0[t].val := by cases hgr; rfl
          have hgf : n.gradFn = h0[t].gradFn := by cases hgr; rfl
          rw [hval]
          rw [hgf] at hsum
          exact backward_fits hg0 e1 (List.getElem?_eq_getElem hlt) (hi t _ (List.getElem?_eq_getElem hlt) hsum) g hg
        · obtain ⟨_, _, us, _, _, _, u1, a1⟩ := backward_inv hg0 e1
          have hnew := applyUpdates_newer (c := h0.length) (Nat.le_refl _) (fun u hu => by
            obtain ⟨m, hm, _⟩ := jvpUpdates_shape u1 u hu
            exact getElem?_lt hm) (fun t n ht hn => by have := getElem?_lt hn; omega) a1 t n hge hn
          rw [gradOf_none hn hnew] at hg
          cases hg

/-- C38, test: after a backward pass the gradients of the input and of an intermediate tensor have their shapes. -/
example : ∃ h : Heap Int, runOps [] [.new [1, 2] [2], .new [3] [1], .add 0 1, .sum 2, .new [4, 4] [2], .updateGrad 0 5, .backward 4] = .ok h ∧
    gradOf h 0 = some ⟨[5, 5], [2]⟩ ∧ gradOf h 1 = some ⟨[2], [1]⟩ ∧ gradOf h 2 = some ⟨[1, 1], [2]⟩ := ⟨_, rfl, rfl, rfl, rfl⟩

/-- C38, test: the other exception, the result of `RawTensor::sum` made a tensor, has no history to recognise it by. -/
example : ∃ h : Heap Int, runOps [] [.new [5, 7] [2], .rawSum 0] = .ok h ∧ dataOf h 2 = some ⟨[12], []⟩ ∧
    historyOf h 2 = some none ∧ gradOf h 2 = some ⟨[1, 1], [2]⟩ := ⟨_, rfl, rfl, rfl, rfl⟩

/-! ## which roots backward accepts (C39) -/

/-- C39: `backward` panics on a tensor with other than one element and on a tensor without history. -/
theorem C39_rejects (h : Heap T) (t : Nat) (v : Raw T) (ht : dataOf h t = some v)
    (hno : v.array.length ≠ 1 ∨ historyOf h t = some none) : Panics (backward h t) := by
  obtain ⟨n, hn, rfl⟩ := dataOf_eq.1 ht
  unfold backward
  rw [Heap.node_eq_ok.2 hn, R.bind_ok]
  by_cases hl : n.val.array.length = 1
  · have hh := hno.resolve_left (fun h => h hl)
    obtain ⟨n', hn', hgf⟩ := historyOf_eq.1 hh
    rw [hn] at hn'
    cases hn'
    rw [hl, hgf]
    exact ⟨.unwrap, rfl, by simp⟩
  · have : (n.val.array.length == 1) = false := by simpa using hl
    rw [this]
    exact ⟨.assert, rfl, by simp⟩

/-- C39, the acceptance half of the full statement. It is false: see `C39_false`. -/
def C39_statement (T : Type) [Zero T] [One T] [Add T] [Mul T] [Sub T] [Neg T] [LT T] [DecidableLT T] [LE T] [DecidableLE T]
    [RealFn T] : Prop :=
  ∀ (h : Heap T), Reachable h → ∀ t v d, dataOf h t = some v → v.array.length = 1 → historyOf h t = some (some d) →
    ∃ h', backward h t = .ok h'

/-- C39 does not hold: `abs` of a one-element tensor rejects `backward` (its gradient function insists on a two-dimensional
upstream gradient, and `backward` starts with a scalar). -/
theorem C39_false : ¬ C39_statement Int := by
  intro hs
  have hr : Reachable ([⟨⟨[3], [1]⟩, none, none⟩, ⟨⟨[3], [1]⟩, none, some ⟨[0], .abs⟩⟩] : Heap Int) :=
    ⟨[.new [3] [1], .abs 0], by decide⟩
  obtain ⟨h', e⟩ := hs _ hr 1 ⟨[3], [1]⟩ ⟨[0], .abs⟩ rfl rfl rfl
  have : backward ([⟨⟨[3], [1]⟩, none, none⟩, ⟨⟨[3], [1]⟩, none, some ⟨[0], .abs⟩⟩] : Heap Int) 1 = .error (.panic .assert) := by
    decide
  rw [this] at e
  cases e

/-- C39, two more rejected one-element results with a history: a 1x1 matrix product, and the sum of a dot product. -/
theorem C39_actual : (∃ h, runOps [] [Op.new [3] [1, 1], .bmm 0 0] = .ok (h : Heap Int) ∧ Panics (backward h 1)) ∧
    ∃ h, runOps [] [Op.new [3, 4] [2], .dot 0 0, .sum 1] = .ok (h : Heap Int) ∧ Panics (backward h 3) :=
  ⟨⟨_, rfl, .index, rfl, by simp⟩, ⟨_, rfl, .assert, rfl, by simp⟩⟩

/-- C39 for graphs without `dot`, whose `bmm` inputs are matrices (not stacks of matrices), if the root itself is no `abs` and no
`bmm`, all ancestors have no zero-length dimension, and gradients left from before have the shapes of their tensors or belong to scalars
(the result of a `sum` inside of the graph starts with a gradient of another shape). Missing: the
other graphs; for `abs`, `bmm` roots, for `dot` below another operation, and for stacks of matrices it is false. -/
theorem C39_partial (h : Heap T) (hr : Reachable h) (l : Nat) (v : Raw T) (d : Deriv) (hv : dataOf h l = some v)
    (hone : v.array.length = 1) (hd : historyOf h l = some (some d)) (hroot : d.kind ≠ .abs ∧ d.kind ≠ .bmm)
    (hkind : ∀ m e, m = l ∨ Ancestor h m l → historyOf h m = some (some e) → e.kind ≠ .dot ∧
      (e.kind = .bmm → ∀ i w, e.inputs[0]? = some i → dataOf h i = some w → w.shape.length = 2))
    (hanc : ∀ a w, Ancestor h a l → dataOf h a = some w → WF w ∧ Pos w.shape ∧
      ∀ g, gradOf h a = some g → WF g ∧ (g.shape = w.shape ∨ w.shape = [] ∧ Pos g.shape)) :
    ∃ h', backward h l = .ok h' := by
  obtain ⟨n, hn, rfl⟩ := dataOf_eq.1 hv
  obtain ⟨n', hn', hgf⟩ := historyOf_eq.1 hd
  rw [hn] at hn'
  cases hn'
  have hfine : ∀ m, m = l ∨ Ancestor h m l → JvpFine h m := by
    intro m hm e he
    cases hmn : h[m]? with
    | none => rw [hmn] at he; cases he
    | some mn =>
      rw [hmn] at he
      obtain ⟨h1, h2⟩ := hkind m e hm (historyOf_eq.2 ⟨mn, hmn, he⟩)
      exact ⟨h1, fun hb i hi n hn => h2 hb i n.val hi (dataOf_eq.2 ⟨n, hn, rfl⟩)⟩
  have hll := getElem?_lt hn
  obtain ⟨us, hus⟩ := jvpUpdates_ok hr.good h.length l (by omega) hn hgf (fun a x ha hx => by
      obtain ⟨w1, w2, _⟩ := hanc a x.val ha (dataOf_eq.2 ⟨x, hx, rfl⟩)
      exact ⟨w1, w2, hfine a (.inr ha)⟩) (hfine l (.inl rfl)) (gradOk_scalar 1 _) (.inr ⟨hone, hroot.2, hroot.1⟩)
  have hanc' : ∀ u ∈ us, Ancestor h u.1 l := by
    intro u hu
    have h2 := jvpUpdates_paths hr.good hn hgf hus
    have : u.1 ∈ (pathsOf (h.length + 1) h d).map Prod.fst := by rw [← h2]; exact List.mem_map_of_mem hu
    obtain ⟨⟨s, p⟩, hx, hx'⟩ := List.mem_map.1 this
    rw [← hx']
    exact ((mem_pathsOf hr.good hn hgf (by omega)).1 hx).ancestor
  obtain ⟨h', e'⟩ := applyUpdates_ok (us := us) hr.good (by
    intro u hu
    obtain ⟨m, hm, h3, h4⟩ := jvpUpdates_shape hus u hu
    exact ⟨m, hm, h3, h4, (hanc u.1 m.val (hanc' u hu) (dataOf_eq.2 ⟨m, hm, rfl⟩)).2.1⟩) (by
    intro u hu m p hm hp
    exact (hanc u.1 m.val (hanc' u hu) (dataOf_eq.2 ⟨m, hm, rfl⟩)).2.2 p hp)
  refine ⟨h', ?_⟩
  simp only [backward, Heap.node_eq_ok.2 hn, R.bind_ok, hgf, unwrapO, hone]
  exact (computeJvp_ok (Frame.refl h) (fun i hi => ((hr.good l n hn).older d hgf i hi).trans hll) hr.good).2 ⟨us, hus, e'⟩

/-- C39, test: a graph with sharing, broadcasting, `bmm`, `abs` and `relu` below a `sum`. -/
example : (do
    let h ← runOps [] [Op.new [1, 2, 3, 4] [2, 2], .new [5] [1], .bmm 0 0, .add 2 1, .abs 3, .relu 4, .sub 5 0, .sum 7, .backward 9]
    return (gradOf h 1, gradOf h 0)) = (.ok (some ⟨[4], [1]⟩, some ⟨[6, 10, 8, 12], [2, 2]⟩) : R (Option (Raw Int) × Option (Raw Int))) := by
  decide +kernel

/-- C39, test: `sum`s inside of the graph. The gradient of the inner `sum` starts with ones for both elements and keeps this shape. -/
example : (do
    let h ← runOps [] [Op.new [1, 2] [2], .sum 0, .add 2 2, .backward 3]
    return (gradOf h 2, gradOf h 0)) = (.ok (some ⟨[3, 3], [2]⟩, some ⟨[2, 2], [2]⟩) : R (Option (Raw Int) × Option (Raw Int))) := by
  decide +kernel

/-! ## which operations are differentiable (C40) -/

/-- The operands to which a result carries history: `bmm` with a view on the right only to the left operand; multiplication,
everything read through a view and all functions of `RawTensor`s to none. -/
def Spec.diffOperands : Op T → List Nat
  | .add l r | .sub l r | .bmm l r | .dot l r => [l, r]
  | .neg t | .relu t | .tanh t | .abs t | .sum t => [t]
  | .bmmView l _ => [l]
  | _ => []

/-- C40: an existing tensor is recorded as an input of the result of an operation, directly or through one tensor the operation
created as well, exactly if it is one of the differentiable operands. -/
theorem C40_history (h h' : Heap T) (op : Op T) (hr : Reachable h)
    (hop : ∀ t g, op ≠ .updateGrad t g ∧ op ≠ .zeroGrad t ∧ op ≠ .backward t ∧ op ≠ .rawClone t) (e : op.run h = .ok h')
    (a : Nat) (ha : a < h.length) :
    (∃ m, h.length ≤ m ∧ (m = h'.length - 1 ∨ IsInput h' m (h'.length - 1)) ∧ IsInput h' a m) ↔ a ∈ diffOperands op := by
  have hcl : ∀ t, op ≠ .rawClone t := fun t => (hop t 0).2.2.2
  have hop := op.isGrad_false fun t g => ⟨(hop t g).1, (hop t g).2.1, (hop t g).2.2.1⟩
  obtain ⟨ns, rfl, hns⟩ := Op.run_fresh hop e
  -- reading off the histories of the new nodes
  have key : ∀ (i x : Nat), IsInput (h ++ ns) x (h.length + i) ↔ ∃ p d, (op.fresh h)[i]? = some p ∧ p.2 = some d ∧ x ∈ d.inputs := by
    intro i x
    rw [← hns, List.getElem?_map]
    simp only [IsInput, List.getElem?_append_right (Nat.le_add_right _ _), Nat.add_sub_cancel_left]
    constructor
    · rintro ⟨n, d, h1, h2, h3⟩
      exact ⟨n.links, d, by rw [h1]; rfl, h2, h3⟩
    · rintro ⟨p, d, h1, h2, h3⟩
      simp only [Option.map_eq_some_iff] at h1
      obtain ⟨n, h1, rfl⟩ := h1
      exact ⟨n, d, h1, h2, h3⟩
  have hlen : ns.length = (op.fresh h).length := by rw [← hns]; simp
  have main : ∀ k, (op.fresh h).length = k + 1 → ((∃ m, h.length ≤ m ∧ (m = (h ++ ns).length - 1 ∨ IsInput (h ++ ns) m ((h ++ ns).length - 1)) ∧
      IsInput (h ++ ns) a m) ↔ ∃ i, (i = k ∨ ∃ p d, (op.fresh h)[k]? = some p ∧ p.2 = some d ∧ h.length + i ∈ d.inputs) ∧
        ∃ p d, (op.fresh h)[i]? = some p ∧ p.2 = some d ∧ a ∈ d.inputs) := by
    intro k hk
    have hl : (h ++ ns).length - 1 = h.length + k := by rw [List.length_append, hlen, hk]; omega
    rw [hl]
    constructor
    · rintro ⟨m, hm, h1, h2⟩
      obtain ⟨i, rfl⟩ : ∃ i, m = h.length + i := ⟨m - h.length, by omega⟩
      refine ⟨i, ?_, (key i a).1 h2⟩
      rcases h1 with h1 | h1
      · exact .inl (by omega)
      · exact .inr ((key k _).1 h1)
    · rintro ⟨i, h1, h2⟩
      refine ⟨h.length + i, by omega, ?_, (key i a).2 h2⟩
      rcases h1 with rfl | h1
      · exact .inl rfl
      · exact .inr ((key k _).2 h1)
  have one : ∀ d, op.fresh h = [d] → ((∃ m, h.length ≤ m ∧ (m = (h ++ ns).length - 1 ∨ IsInput (h ++ ns) m ((h ++ ns).length - 1)) ∧
      IsInput (h ++ ns) a m) ↔ ∃ e, d.2 = some e ∧ a ∈ e.inputs) := by
    intro d hd
    rw [main 0 (by rw [hd]; rfl), hd]
    constructor
    · rintro ⟨i, -, p, e, h1, h2, h3⟩
      have : i = 0 := by
        by_contra hne
        rw [List.getElem?_eq_none (by simp; omega)] at h1
        cases h1
      subst this
      cases h1
      exact ⟨e, h2, h3⟩
    · rintro ⟨e, h1, h2⟩
      exact ⟨0, .inl rfl, d, e, rfl, h1, h2⟩
  cases op with
  | sub l r =>
    rw [main 1 rfl]
    simp only [Op.fresh, diffOperands]
    constructor
    · rintro ⟨i, -, p, d, h1, h2, h3⟩
      match i, h1 with
      | 0, h1 => cases h1; cases h2; simp at h3; simp [h3]
      | 1, h1 =>
        cases h1; cases h2
        simp at h3
        rcases h3 with h3 | h3
        · simp [h3]
        · omega
    · intro hm
      simp at hm
      rcases hm with rfl | rfl
      · exact ⟨1, .inl rfl, _, _, rfl, rfl, by simp⟩
      · exact ⟨0, .inr ⟨_, _, rfl, rfl, by simp⟩, _, _, rfl, rfl, by simp⟩
  | sum t =>
    rw [main 1 rfl]
    simp only [Op.fresh, diffOperands]
    constructor
    · rintro ⟨i, -, p, d, h1, h2, h3⟩
      match i, h1 with
      | 0, h1 => cases h1; cases h2
      | 1, h1 => cases h1; cases h2; exact h3
    · intro hm
      exact ⟨1, .inl rfl, _, _, rfl, rfl, hm⟩
  | bmmView l v =>
    rw [main 1 rfl]
    simp only [Op.fresh, diffOperands]
    constructor
    · rintro ⟨i, -, p, d, h1, h2, h3⟩
      match i, h1 with
      | 0, h1 => cases h1; cases h2
      | 1, h1 =>
        cases h1; cases h2
        simp at h3
        rcases h3 with h3 | h3
        · simp [h3]
        · omega
    · intro hm
      simp at hm
      exact ⟨1, .inl rfl, _, _, rfl, rfl, by simp [hm]⟩
  | rawSum t =>
    rw [main 1 rfl]
    simp only [Op.fresh, diffOperands]
    constructor
    · rintro ⟨i, -, p, d, h1, h2, h3⟩
      match i, h1 with
      | 0, h1 => cases h1; cases h2
      | 1, h1 => cases h1; cases h2
    · intro hm
      cases hm
  | rawClone t => exact absurd rfl (hcl t)
  | updateGrad t g => cases hop
  | zeroGrad t => cases hop
  | backward t => cases hop
  | _ => rw [one _ rfl]; simp [diffOperands]

/-- C40, test: the same sum with and without history; a dot product with a view has none. -/
example : (do
    let h ← runOps [] [Op.new [1, 2] [2], .new [10, 20] [2], .add 0 1, .rawBin .add (.tensor 0) (.tensor 1), .rawSub 0 1,
      .rawBin .dot (.tensor 0) (.view (.view 1 [⟨0, 2⟩])), .rawUnary (fun x => x * x) (.tensor 1)]
    return (List.range h.length).map fun i => (dataOf h i, historyOf h i)) =
    (.ok [(some ⟨[1, 2], [2]⟩, some none), (some ⟨[10, 20], [2]⟩, some none), (some ⟨[11, 22], [2]⟩, some (some ⟨[0, 1], .add⟩)),
      (some ⟨[11, 22], [2]⟩, some none), (some ⟨[-9, -18], [2]⟩, some none), (some ⟨[50], [1]⟩, some none),
      (some ⟨[100, 400], [2]⟩, some none)] : R (List (Option (Raw Int) × Option (Option Deriv)))) := by decide +kernel

/-- C40: the ancestors of a result among the existing tensors are its differentiable operands and their ancestors. So (`C36`)
`backward` through a multiplication or through anything read through a view changes no operand's gradient. -/
theorem C40_ancestors (h h' : Heap T) (op : Op T) (hr : Reachable h)
    (hop : ∀ t g, op ≠ .updateGrad t g ∧ op ≠ .zeroGrad t ∧ op ≠ .backward t ∧ op ≠ .rawClone t) (e : op.run h = .ok h')
    (a : Nat) (ha : a < h.length) :
    Ancestor h' a (h'.length - 1) ↔ ∃ o ∈ diffOperands op, a = o ∨ Ancestor h a o := by
  have hh := C40_history h h' op hr hop e
  have hr' := hr.op e
  have hcl : ∀ t, op ≠ .rawClone t := fun t => (hop t 0).2.2.2
  have hop := op.isGrad_false fun t g => ⟨(hop t g).1, (hop t g).2.1, (hop t g).2.2.1⟩
  obtain ⟨ns, rfl, hns⟩ := Op.run_fresh hop e
  have hlen2 : ns.length ≤ 2 ∧ 0 < ns.length := by
    have : ns.length = (op.fresh h).length := by rw [← hns]; simp
    rw [this]
    cases op <;> first | exact absurd rfl (hcl _) | exact Bool.noConfusion hop | simp [Op.fresh]
  have hin : ∀ x y, y < h.length → (IsInput (h ++ ns) x y ↔ IsInput h x y) := by
    intro x y hy
    simp [IsInput, List.getElem?_append_left hy]
  have hlt : ∀ x y, IsInput (h ++ ns) x y → x < y := fun x y hi => C35_acyclic _ hr' x y (.single hi)
  have hold : ∀ b, b < h.length → Ancestor (h ++ ns) a b → Ancestor h a b := by
    intro b hb hab
    induction hab with
    | single hi => exact .single ((hin _ _ hb).1 hi)
    | tail h1 hi ih => exact (ih ((hlt _ _ hi).trans hb)).tail ((hin _ _ hb).1 hi)
  have hnew : ∀ b, Ancestor h a b → Ancestor (h ++ ns) a b := by
    intro b hab
    have lift : ∀ x y, IsInput h x y → IsInput (h ++ ns) x y := by
      rintro x y ⟨n, d, h1, h2⟩
      exact ⟨n, d, by rw [List.getElem?_append_left (getElem?_lt h1)]; exact h1, h2⟩
    exact Relation.TransGen.mono (p := IsInput (h ++ ns)) lift _ _ hab
  have hres : (h ++ ns).length - 1 = h.length + (ns.length - 1) := by simp; omega
  constructor
  · intro hab
    have step : ∀ b, h.length ≤ b → (b = (h ++ ns).length - 1 ∨ IsInput (h ++ ns) b ((h ++ ns).length - 1)) →
        Ancestor (h ++ ns) a b → (∃ o ∈ diffOperands op, a = o ∨ Ancestor h a o) ∨
          ∃ x, h.length ≤ x ∧ IsInput (h ++ ns) x b ∧ Ancestor (h ++ ns) a x := by
      intro b hb hbr hab
      cases hab with
      | single hi => exact .inl ⟨a, (hh a ha).1 ⟨b, hb, hbr, hi⟩, .inl rfl⟩
      | tail h1 hi =>
        rename_i x
        rcases Nat.lt_or_ge x h.length with hx | hx
        · exact .inl ⟨x, (hh x hx).1 ⟨b, hb, hbr, hi⟩, .inr (hold x hx h1)⟩
        · exact .inr ⟨x, hx, hi, h1⟩
    rcases step _ (by omega) (.inl rfl) hab with h1 | ⟨x, hx, hxi, hax⟩
    · exact h1
    · have hxl := hlt _ _ hxi
      rcases step x hx (.inr hxi) hax with h1 | ⟨y, hy, hyi, hay⟩
      · exact h1
      · have := hlt _ _ hyi
        omega
  · rintro ⟨o, ho, hao⟩
    have hol : o < h.length := by
      rcases hao with rfl | hao
      · exact ha
      · cases hao with
        | single hi => obtain ⟨n, d, h1, _⟩ := hi; exact getElem?_lt h1
        | tail _ hi => obtain ⟨n, d, h1, _⟩ := hi; exact getElem?_lt h1
    obtain ⟨m, hm, hmr, hmi⟩ := (hh o hol).2 ho
    have hom : Ancestor (h ++ ns) o ((h ++ ns).length - 1) := by
      rcases hmr with rfl | hmr
      · exact .single hmi
      · exact (Relation.TransGen.single hmi).tail hmr
    rcases hao with rfl | hao
    · exact hom
    · exact (hnew o hao).trans hom

/-- Test: `-` records both operands (the right one through its negation), `*` records none. -/
example : ∃ h1 h2 : Heap Int, runOps [] [.new [1, 2] [2], .new [3] [1]] = .ok h1 ∧ runOps h1 [.sub 0 1, .mul 0 0] = .ok h2 ∧
    h2.map (fun n => n.gradFn.map Deriv.inputs) = [none, none, some [1], some [0, 2], none] := ⟨_, _, rfl, rfl, rfl⟩

end

end RL
