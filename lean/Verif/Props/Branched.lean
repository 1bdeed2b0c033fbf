import Verif.Lemmas.BranchNet
import Verif.Props.Predict
/-
  C78: models with branches compute the function of their graph of layers.
-/
set_option linter.unusedSectionVars false

namespace Godeep.Props
open Godeep Spec GoNum

variable {T : Type} [GoNum T]

/-- C78: a model whose layers form a graph (layers read by several others, `Concat` layers, layers that are not used),
made with `FromInOut` and compiled, after any sequence of predictions, changes of the weights and work on other tensors,
layers and models: a `Predict` that returns gives a new tensor with what the graph of layers computes from the current
weights.  It changes no weights and no tensor of the user.  Tensors of other shapes are rejected and nothing changes.
The hypothesis on `counted` says that counting the uses of a layer in the type of the elements does not come back to 0. -/
theorem C78_branched {shape : List Nat} {ns : List (BNode T)} {o : Nat} (hfit : GraphFits ns shape) (ho : o ≤ ns.length)
    (hlaw : ∀ c, 0 < c → c ≤ 2 * ns.length + 3 → eq (counted c) (zero : T) = false) {w0 : World T} (hpos : 0 < w0.store.heap.next) :
    ∃ m ids w1, branchedCompiled shape ns o w0 = .ok (m, ids) w1 ∧ ids.length = ns.length + 1 ∧ ids.Nodup ∧
      ∀ w2, BSteps w0 w1 m ids w1 w2 →
      (∃ pv, LayersHave w2 ids pv ∧ pv.length = ns.length ∧ ∀ (k : Nat) (n : BNode T), ns[k]? = some n → Needed ns o (k + 1) →
        (pv.getD k []).map STensor.shape = n.paramShapes fun i => (graphShapes ns shape).getD i []) ∧
      (∀ t x pv, UserTensor w0 w1 w2 t x → x.shape = shape → LayersHave w2 ids pv →
        (∀ r w3, NetM.predict m t w2 = .ok r w3 →
          UserTensor w0 w1 w3 r (graphFn ns o pv x) ∧ LayersHave w3 ids pv ∧ r = w2.nodeNext ∧
          ∀ n y, UserTensor w0 w1 w2 n y → UserTensor w0 w1 w3 n y) ∧
        (∀ e w3, NetM.predict m t w2 ≠ .err e w3) ∧
        (GraphSafe ns shape → ∃ r w3, NetM.predict m t w2 = .ok r w3)) ∧
      ∀ t, (w2.store.nodes t).mat.shape ≠ shape → ∃ e, NetM.predict m t w2 = .err e w2 := by
  obtain ⟨⟨m, ids⟩, w1, e, rfl, d, M⟩ := wp_total (branched_compiled (fun s => ffGood_all s) hlaw hpos hfit ho)
  refine ⟨m, _, w1, e, by simp [gids], ?_, fun w2 hst => ?_⟩
  · exact List.Nodup.map (fun a b h => by omega) List.nodup_range
  have L := blive_steps M hst
  refine ⟨L.someParams M, fun t x pv hu hs hp => ⟨fun r w3 he => ?_, fun e' w3 => ?_, fun hsafe => ?_⟩, fun t ht => predict_graph_shape (L.comp M) ht⟩
  · have := predict_graph (L.comp M) hu.2.1 hs fun q hq hq' => M.inside_in hq' (hu.2.2 q hq)
    have P : BPred m shape ns o d x r w2 w3 := by rw [wp, he] at this; exact this
    exact ⟨P.result M L hp, P.params M L hp, P.fresh.1, fun n y hn => P.user M hn⟩
  · exact predict_graph_noerr (L.comp M) hu.2.1 hs (fun q hq hq' => M.inside_in hq' (hu.2.2 q hq)) e' w3
  · have := predict_graph (L.comp M) hu.2.1 hs fun q hq hq' => M.inside_in hq' (hu.2.2 q hq)
    unfold wp at this
    cases h : NetM.predict m t w2 with
    | ok r w3 => exact ⟨r, w3, rfl⟩
    | err e' w3 => rw [h] at this; exact (this hsafe).elim
    | panic => rw [h] at this; exact (this hsafe).elim

/-- the tensors that exist before a model with branches is made are tensors of the user -/
theorem branched_user {shape : List Nat} {ns : List (BNode T)} {o : Nat} (hfit : GraphFits ns shape) (ho : o ≤ ns.length)
    (hlaw : ∀ c, 0 < c → c ≤ 2 * ns.length + 3 → eq (counted c) (zero : T) = false) {w0 : World T} (hpos : 0 < w0.store.heap.next)
    {n : Nat} {x : STensor T} (hn : n < w0.nodeNext) (hf : Spec.frozen w0.store n) (hx : Holds w0.store.heap (w0.store.nodes n).mat x) :
    ∃ r w1, branchedCompiled shape ns o w0 = .ok r w1 ∧ UserTensor w0 w1 w1 n x := by
  obtain ⟨⟨m, ids⟩, w1, e, rfl, d, M⟩ := wp_total (branched_compiled (fun s => ffGood_all s) hlaw hpos hfit ho)
  obtain ⟨_, e'⟩ := M.apart.ext.frozen n hn hf
  refine ⟨_, w1, e, lt_of_lt_of_le hn M.apart.ext.nodeNext, ?_, fun q hq => ?_⟩
  · rw [e']
    exact hx.kept M.apart.ext.next fun q hq => M.apart.val q (hx.valid q hq).2
  · rw [e'] at hq
    exact Or.inl (hx.valid q hq).2

theorem counted_int (c : Nat) : (counted c : Int) = c := by
  induction c with
  | zero => rfl
  | succ c ih =>
    show (counted c : Int) + 1 = _
    rw [ih]; omega

/-- the counters of integer models never come back to 0 -/
theorem counted_int_ne (c : Nat) (h : 0 < c) : eq (counted c : Int) zero = false := by
  rw [counted_int]
  show decide ((c : Int) = 0) = false
  simp only [decide_eq_false_iff_not]
  omega

/-- the function of two branches that are concatenated and of a layer on top, written out -/
example (s1 s2 s3 : LSpec T) (d : Nat) (p1 p2 p3 : List (STensor T)) (x : STensor T) :
    graphFn [.layer s1 0, .layer s2 0, .concat 1 2 d, .layer s3 3] 4 [p1, p2, [], p3] x =
      s3.fn p3 ((s1.fn p1 x).concat (s2.fn p2 x) d) := rfl

/-- two branches on a shared dense layer, one of them with a skip connection, an unused layer, and a dense layer on the
concatenation of the branches -/
def exampleGraph : List (BNode Int) :=
  [.layer (.dense 2 .linear) 0, .layer (.dense 3 .linear) 1, .concat 1 2 0, .layer (.dense 7 .linear) 0, .concat 3 0 0, .layer (.dense 1 .linear) 5]

theorem exampleGraph_fits : GraphFits exampleGraph [4] ∧ GraphSafe exampleGraph [4] := by
  constructor
  · intro k n h
    match k, h with
    | 0, h => cases h; exact ⟨by decide, trivial⟩
    | 1, h => cases h; exact ⟨by decide, trivial⟩
    | 2, h => cases h; exact ⟨by decide, ⟨by decide, by decide⟩⟩
    | 3, h => cases h; exact ⟨by decide, trivial⟩
    | 4, h => cases h; exact ⟨by decide, ⟨by decide, by decide⟩⟩
    | 5, h => cases h; exact ⟨by decide, trivial⟩
    | k + 6, h => simp [exampleGraph] at h
  · intro n hn
    simp only [exampleGraph, List.mem_cons, List.not_mem_nil, or_false] at hn
    rcases hn with rfl | rfl | rfl | rfl | rfl | rfl <;> trivial

attribute [local irreducible] branchedCompiled NetM.predict graphFn in
/-- C78, an instance -/
example : ∃ (m : Nat) (ids : List Nat) (w1 w3 : World Int) (r : Nat) (pv : List (List (STensor Int))),
    branchedCompiled [4] exampleGraph 6 (worldOf [4] 7) = .ok (m, ids) w1 ∧ LayersHave w1 ids pv ∧
    (pv.getD 5 []).map STensor.shape = [[1, 9], [1]] ∧
    NetM.predict m 0 w1 = .ok r w3 ∧ UserTensor (worldOf [4] 7) w1 w3 r (graphFn exampleGraph 6 pv ⟨[4], fun _ => 7⟩) := by
  obtain ⟨hfit, hsafe⟩ := exampleGraph_fits
  obtain ⟨r, w1, e, u⟩ := branched_user (o := 6) hfit (by decide) (fun c h _ => counted_int_ne c h) (w0 := worldOf [4] (7 : Int)) (by decide)
    (n := 0) (by decide) (frozen_leaf rfl) (worldOf_holds [4] 7)
  obtain ⟨m, ids, w1', e', _, _, H⟩ := C78_branched (o := 6) hfit (by decide) (fun c h _ => counted_int_ne c h) (w0 := worldOf [4] (7 : Int)) (by decide)
  rw [e] at e'
  cases e'
  obtain ⟨⟨pv, hp, _, hs⟩, H2, _⟩ := H w1 .none
  obtain ⟨a, _, c⟩ := H2 0 _ pv u rfl hp
  obtain ⟨r, w3, e3⟩ := c hsafe
  exact ⟨m, ids, w1, w3, r, pv, e, hp, hs 5 _ rfl .out, e3, (a r w3 e3).1⟩

end Godeep.Props
