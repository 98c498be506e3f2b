import Verif.Props.Concurrent
import Verif.Lemmas.Simulate
import Verif.Lemmas.OneWorker

/-!
# Reproducibility of gradients without associativity (C58)
-/

namespace RL

open Spec SplitWriter

variable {T : Type}

/-- C58, full statement: where addition is commutative and 0 is neutral (as for floats, but not necessarily associative), two runs of
`bmm_jvp` on the same inputs, called from outside of a pool, give the same arrays. It is false: see `C58_false`. -/
def C58_statement : Prop :=
  ∀ (T : Type) [Zero T] [Add T] [Mul T], (∀ x y : T, x + y = y + x) → (∀ x : T, 0 + x = x) →
    ∀ (a b jac : Raw T) (sh : BmmJvpShapes) (progs : List (Prog T)), IsScope a b jac sh progs →
    ∀ (n : Nat) (p q : PSt T), Relation.ReflTransGen (PStep n none) (PSt.init progs (lens sh)) p → p.Complete n →
      Relation.ReflTransGen (PStep n none) (PSt.init progs (lens sh)) q → q.Complete n → p.data.arr = q.data.arr

namespace ReproduceTest

/-- numbers with a saturating addition -/
structure Sat where
  v : Int
deriving DecidableEq

instance : Zero Sat := ⟨⟨0⟩⟩
instance : Mul Sat := ⟨fun x y => ⟨x.v * y.v⟩⟩
instance : Add Sat := ⟨fun x y => ⟨if x.v = 0 then y.v else if y.v = 0 then x.v else max (-10) (min 10 (x.v + y.v))⟩⟩

theorem add_comm (x y : Sat) : x + y = y + x := by
  change Sat.mk _ = Sat.mk _
  congr 1
  rw [Int.add_comm y.v]
  split_ifs <;> simp_all

theorem zero_add (x : Sat) : 0 + x = x := by
  obtain ⟨x⟩ := x
  rfl

/-- the gradient of a 1 x 1 matrix times a 1 x 3 matrix: three tasks write into the cell of the left operand -/
def progs : List (Prog Sat) :=
  [⟨[⟨false, 0, ⟨10⟩⟩, ⟨true, 0, ⟨10⟩⟩], false⟩, ⟨[⟨false, 0, ⟨10⟩⟩, ⟨true, 1, ⟨10⟩⟩], false⟩, ⟨[⟨false, 0, ⟨-10⟩⟩, ⟨true, 2, ⟨-10⟩⟩], false⟩]

def shapes : BmmJvpShapes := ⟨[1, 3], [3, 1], [1, 1], [1, 3]⟩

theorem scope : IsScope (⟨[⟨1⟩], [1, 1]⟩ : Raw Sat) ⟨[⟨1⟩, ⟨1⟩, ⟨1⟩], [1, 3]⟩ ⟨[⟨10⟩, ⟨10⟩, ⟨-10⟩], [1, 3]⟩ shapes progs := by
  refine ⟨rfl, 1, 1, 3, rfl, rfl, rfl, ?_⟩
  exact .cons rfl (.cons rfl (.cons rfl .nil))

/-- worker 0 does everything, the tasks in the order in which they were spawned -/
def run1 : List Cmd := List.replicate 5 .inject ++
  [.take 0, .go 0, .go 0, .go 0, .take 0, .go 0, .go 0, .go 0, .take 0, .go 0, .go 0, .go 0] ++
  [.take 0, .go 0, .go 0, .pop 0, .go 0, .go 0, .go 0, .go 0] ++ [.take 0, .go 0, .go 0, .pop 0, .go 0, .go 0, .go 0, .go 0]

/-- worker 1 is slow with the first task -/
def run2 : List Cmd := List.replicate 5 .inject ++
  [.take 1, .take 0, .go 0, .go 0, .go 0, .take 0, .go 0, .go 0, .go 0, .go 1, .go 1, .go 1] ++
  [.take 0, .go 0, .go 0, .pop 0, .go 0, .go 0, .go 0, .go 0] ++ [.take 0, .go 0, .go 0, .pop 0, .go 0, .go 0, .go 0, .go 0]

end ReproduceTest

open ReproduceTest in
/-- C58 is false: the messages of the tasks are added in the order in which they happen to be sent. With two workers and three
contributions to one cell, two runs end with 0 and with 10. -/
theorem C58_false : ¬ C58_statement := by
  intro h
  obtain ⟨p, p1, p2, p3, _⟩ := ranTo_reach (n := 2) (p := PSt.init progs (lens shapes)) (cs := run1) (l := [⟨0⟩])
    (r := [⟨10⟩, ⟨10⟩, ⟨-10⟩]) (by decide +kernel)
  obtain ⟨q, q1, q2, q3, _⟩ := ranTo_reach (n := 2) (p := PSt.init progs (lens shapes)) (cs := run2) (l := [⟨10⟩])
    (r := [⟨10⟩, ⟨10⟩, ⟨-10⟩]) (by decide +kernel)
  have := h Sat ReproduceTest.add_comm ReproduceTest.zero_add _ _ _ _ _ scope 2 p q p1 p2 q1 q2
  rw [this] at p3
  rw [p3] at q3
  simp at q3

/-- C58 for a pool with one worker, without any laws of addition: every run of `bmm_jvp`, called from outside of the pool, gives the
arrays of the sequential run, where the contributions are added in loop order.
Missing: more workers, where it is false (`C58_false`). -/
theorem C58_single_partial [Zero T] [Add T] [Mul T] (a b jac : Raw T) (sh : BmmJvpShapes) (progs : List (Prog T))
    (h : IsScope a b jac sh progs) (p : PSt T) (hs : Relation.ReflTransGen (PStep 1 none) (PSt.init progs (lens sh)) p)
    (hc : p.Complete 1) :
    (Sender.failed ∉ p.data.senders ∧
      bmmJvp [a, b] [jac] = .ok [⟨p.data.arr false, sh.leftOutput⟩, ⟨p.data.arr true, sh.rightOutput⟩]) ∨
    (Sender.failed ∈ p.data.senders ∧ ∃ e, bmmJvp [a, b] [jac] = .error e) := by
  obtain ⟨w, q, hi⟩ := h.inv (PReach.data hs)
  obtain ⟨hsh, m, k, n, h0, h1, h2, hp⟩ := h
  obtain ⟨_, hf, _⟩ := hi.complete ((PReach.pinv (by simp) hs).complete hi hc)
  rcases hp.bmmJvp hsh h0 h1 h2 with ⟨e, p, he, hm, hpf⟩ | ⟨he, hpf⟩
  · exact .inr ⟨hf.2 ⟨p, hm, hpf⟩, e, he⟩
  · have hnf : Sender.failed ∉ p.data.senders := by
      intro hm
      obtain ⟨p, hm, hx⟩ := hf.1 hm
      rw [hpf p hm] at hx
      cases hx
    refine .inl ⟨hnf, ?_⟩
    rw [he, one_complete (hp.inRange hsh) hs hc hnf, one_complete (hp.inRange hsh) hs hc hnf]

/-- C58 for a cell with at most two contributions: when addition is commutative and 0 is neutral, it has the same value after all runs
in which no task panics, with any number of workers.
Missing: cells with three or more contributions, where it is false (`C58_false`). -/
theorem C58_two_partial [Zero T] [Add T] [Mul T] (hcomm : ∀ x y : T, x + y = y + x) (hzero : ∀ x : T, 0 + x = x) (a b jac : Raw T)
    (sh : BmmJvpShapes) (progs : List (Prog T)) (h : IsScope a b jac sh progs) (n : Nat) (caller : Option Nat)
    (hcl : ∀ c, caller = some c → c < n) (p q : PSt T)
    (hp : Relation.ReflTransGen (PStep n caller) (PSt.init progs (lens sh)) p) (hpc : p.Complete n)
    (hq : Relation.ReflTransGen (PStep n caller) (PSt.init progs (lens sh)) q) (hqc : q.Complete n)
    (hpf : Sender.failed ∉ p.data.senders) (hqf : Sender.failed ∉ q.data.senders) (side : Bool) (g : Nat) (hg : g < lens sh side)
    (htwo : ((progs.flatMap (·.msgs)).filter fun m => m.right == side && m.globalIdx == g).length ≤ 2) :
    (p.data.arr side)[lens sh side - min (32 * (g / 32 + 1)) (lens sh side) + g % 32]? =
      (q.data.arr side)[lens sh side - min (32 * (g / 32 + 1)) (lens sh side) + g % 32]? := by
  have hd := PReach.data hp
  have he := PReach.data hq
  obtain ⟨w1, q1, hi1⟩ := h.inv hd
  obtain ⟨w2, q2, hi2⟩ := h.inv he
  obtain ⟨o1, m1, e1⟩ := C33_order a b jac sh progs h p.data hd ((PReach.pinv hcl hp).complete hi1 hpc) hpf
  obtain ⟨o2, m2, e2⟩ := C33_order a b jac sh progs h q.data he ((PReach.pinv hcl hq).complete hi2 hqc) hqf
  rw [(e1 side).2 g hg, (e2 side).2 g hg]
  have f1 := ((m1.filter fun m => m.right == side && m.globalIdx == g).map (·.val))
  have f2 := ((m2.filter fun m => m.right == side && m.globalIdx == g).map (·.val))
  have f3 := f1.trans f2.symm
  have hl := f1.length_eq
  rw [List.length_map, List.length_map] at hl
  rw [← hl] at htwo
  rw [← List.length_map (f := (·.val))] at htwo
  generalize ((o1.filter fun m => m.right == side && m.globalIdx == g).map (·.val)) = l1 at f3 htwo ⊢
  generalize ((o2.filter fun m => m.right == side && m.globalIdx == g).map (·.val)) = l2 at f3 ⊢
  congr 1
  match l1, htwo, f3 with
  | [], _, f3 => rw [f3.nil_eq]
  | [x], _, f3 => rw [List.singleton_perm.1 f3]
  | [x, y], _, f3 =>
    match l2, f3.length_eq, f3 with
    | [u, v], _, f3 =>
      simp only [List.foldl_cons, List.foldl_nil, hzero]
      rcases List.mem_cons.1 (f3.mem_iff.1 (by simp : x ∈ [x, y])) with rfl | hx
      · have := List.singleton_perm.1 ((List.perm_cons x).1 f3)
        simp at this
        rw [this]
      · simp at hx
        subst hx
        have := List.singleton_perm.1 ((List.perm_cons x).1 (f3.trans (List.Perm.swap _ _ _)))
        simp at this
        rw [this, hcomm]

/-- C58, test: three contributions of a saturating addition on a pool with one worker always give 0, as in the sequential run. -/
example : ∃ p, Relation.ReflTransGen (PStep 1 none) (PSt.init ReproduceTest.progs (lens ReproduceTest.shapes)) p ∧ p.Complete 1 ∧
    p.data.arr false = [⟨0⟩] := by
  obtain ⟨p, p1, p2⟩ := C34_finishes_partial _ _ _ _ _ ReproduceTest.scope 1 none (by decide) (by simp) _ .refl
  refine ⟨p, p1, p2, ?_⟩
  have hb : bmmJvp [(⟨[⟨1⟩], [1, 1]⟩ : Raw ReproduceTest.Sat), ⟨[⟨1⟩, ⟨1⟩, ⟨1⟩], [1, 3]⟩] [⟨[⟨10⟩, ⟨10⟩, ⟨-10⟩], [1, 3]⟩] =
      .ok [⟨[⟨0⟩], [1, 1]⟩, ⟨[⟨10⟩, ⟨10⟩, ⟨-10⟩], [1, 3]⟩] := by
    decide +kernel
  rcases C58_single_partial _ _ _ _ _ ReproduceTest.scope p p1 p2 with ⟨_, e⟩ | ⟨_, e, he⟩
  · rw [hb] at e
    simp at e
    exact e.1.1.symm
  · rw [hb] at he
    cases he

/-- C58, test: each cell of the right array of the same call has one contribution, as `C58_two_partial` asks for. -/
example : ∀ g < lens ReproduceTest.shapes true,
    ((ReproduceTest.progs.flatMap (·.msgs)).filter fun m => m.right == true && m.globalIdx == g).length ≤ 2 := by
  decide +kernel

end RL
