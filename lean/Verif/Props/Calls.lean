import Verif.Lemmas.Calls
import Verif.Props.Branch
import Verif.Props.GraphWrite
/-
  C83, C84: programs made of the functions of package `tensor`.
-/
set_option linter.unusedSectionVars false

namespace Godeep.Props
open Spec GoNum

variable {T : Type} [GoNum T]

theorem data_pend {w : World T} {m : Nat} {s : List Nat} (d : DataTensor w m s) :
    Pend w m s (fun val => ofMat val (w.store.nodes m).mat) (fun _ => True) (∀ x y : T, divPanics x y = false) := by
  have r : Ready w m (w.store.nodes m).mat := ⟨d.exists_, rfl, Or.inr (by rw [d.leaf]; trivial), d.good,
    by rw [d.leaf]; simp [Kind.kids], by rw [d.leaf]; trivial, by rw [d.leaf]; trivial⟩
  have p := (r.pend (∀ x y : T, divPanics x y = false)).mono (S' := fun _ => True) (fun _ _ => trivial) id
  rwa [d.shape] at p

/-- A program makes tensors from data tensors with the functions of package `tensor`, in any order, any number, reusing
results as it likes.  The calls themselves never fail and change no element.  For every tensor whose shape is defined:
its graph can be built, and whenever it is executed – after any change to the elements of the data tensors – the tensor
holds the value the calls define, of the elements the data tensors have at that time. -/
theorem C83_calls (w : World T) (sh : Nat → Option (List Nat)) (calls : List (Call T)) (hpos : 0 < w.store.heap.next)
    (hdata : ∀ m s, sh m = some s → DataTensor w m s) (hscal : ∀ c ∈ calls, c.scalarOK w.store.heap) :
    ∃ w', runCalls calls w = .ok () w' ∧ w'.store.heap = w.store.heap ∧
      (∀ m, m < w.nodeNext → w'.store.nodes m = w.store.nodes m) ∧
      ∀ m s, shapesAfter calls w.nodeNext sh m = some s →
        ∃ ops st, w'.store.newGraph m = .ok ops st ∧ (st.nodes m).mat.shape = s ∧
          ∀ (h : Heap T) (x : Nat → STensor T), PadKept w.store.heap.next st.heap.next ops st.heap h →
            (∀ i t, sh i = some t → Holds h (w.store.nodes i).mat (x i)) →
            (∀ h', exec ops h = .ok () h' → Holds h' (st.nodes m).mat (valuesAfter h.val calls w.nodeNext x m)) ∧
            ((∀ a b : T, divPanics a b = false) → ∃ h', exec ops h = .ok () h') := by
  obtain ⟨w', h1, h2, h3, h4, h5, h6, h7⟩ := run_calls calls w sh (fun val m => ofMat val (w.store.nodes m).mat) hscal
    fun m s hm => data_pend (hdata m s hm)
  refine ⟨w', h1, h2, h6, fun m s hm => ?_⟩
  have P := h7 m s hm
  have hw : WellShaped w'.store m := by unfold WellShaped; rw [P.shape]; rfl
  have hpos' : 0 < w'.store.heap.next := by rw [h2]; exact hpos
  have hsh := shaped_of P.expr hw P.no
  obtain ⟨ops, st, hg⟩ := newGraph_total P.expr hpos' hsh
  obtain ⟨B, -⟩ := newGraph_ok P.expr hpos' hg
  have hshape : ∀ k, Reach w'.store m k → (st.nodes k).mat.shape = shp w'.store k := fun k hk =>
    built_shape B (k + 1) k _ hk (by rw [shapeOf_ctx]; exact hsh.at_ k hk)
  refine ⟨ops, st, hg, ?_, fun h x hk hx => ⟨fun h' he => ?_, fun hd => ?_⟩⟩
  · rw [hshape m (.refl m)]; unfold shp; rw [P.shape]; rfl
  · obtain ⟨t, ht, ht'⟩ := P.val h.val
    refine (exec_value P.expr hpos' hg (by rw [h2]; exact hk) he (.refl m) ht).of_tab ?_
    rw [ht']
    exact valuesAfter_tab h.val calls w.nodeNext sh _ _ (fun i t hi => ⟨(hdata i t hi).shape, ofMat_tab (hx i t hi)⟩) m s hm
  · obtain ⟨ops', st', hg', hall⟩ := C21_build_and_exec hd w'.store m P.expr hpos' hw P.no fun k hk hb => (P.ok hd k hk hb).1
    rw [hg] at hg'
    cases hg'
    obtain ⟨h', he, -⟩ := hall h (by rw [h2]; exact hk)
    exact ⟨h', he⟩

/-- tensors 0 and 1: `[[3, 4, 5], [6, 7, 8]]` and `[1, 10]`; scalar 9 is 100 -/
def callWorld : World Int where
  store := ⟨fun n => if n = 0 then ⟨.leaf, ⟨[2, 3], [3, 1], [1, 2, 3, 4, 5, 6]⟩, false⟩ else ⟨.leaf, ⟨[2], [1], [7, 8]⟩, false⟩,
    ⟨fun q => if q = 7 then 1 else if q = 8 then 10 else if q = 9 then 100 else q + 2, 10⟩, []⟩
  nodeNext := 2
  layers := fun _ => LayerM.blank .input
  layerNext := 0
  nets := fun _ => NetM.blankNet
  netNext := 0
  rnd := fun k _ => k + 2
  draws := 0

def callShapes (n : Nat) : Option (List Nat) := if n = 0 then some [2, 3] else if n = 1 then some [2] else none

/-- `c = Transpose(a)`, `d = DotAt(c, b, 1, 0)`, `e = AddScalar(d, 100)`, `f = Concat(e, d, 0)`, `g = Sub(d, d)`, and one that is not
defined: `Add(f, g)` -/
def callProgram : List (Call Int) := [.transpose 0, .dotAt 2 1 1 0, .addScalar 3 9, .concat 4 3 0, .sub 3 3, .add 5 6]

/-- the hypotheses are met -/
example : 0 < callWorld.store.heap.next ∧ (∀ m s, callShapes m = some s → DataTensor callWorld m s) ∧
    (∀ c ∈ callProgram, c.scalarOK callWorld.store.heap) := by
  refine ⟨by decide, fun m s h => ?_, ?_⟩
  · unfold callShapes at h
    split at h
    · obtain rfl := Option.some.inj h; subst m
      exact ⟨by decide, rfl, Demo.good_lit rfl rfl rfl, rfl⟩
    · split at h
      · obtain rfl := Option.some.inj h; subst m
        exact ⟨by decide, rfl, Demo.good_lit rfl rfl rfl, rfl⟩
      · cases h
  · intro c hc
    simp only [callProgram, List.mem_cons, List.not_mem_nil, or_false] at hc
    rcases hc with rfl | rfl | rfl | rfl | rfl | rfl <;> first | exact trivial | exact ⟨by decide, by decide⟩

/-- the shapes, and the value of `f` as defined by the specification -/
example : (List.range 8).map (shapesAfter callProgram 2 callShapes) =
    [some [2, 3], some [2], some [3, 2], some [3], some [3], some [6], some [3], none] := rfl

example : (valuesAfter callWorld.store.heap.val callProgram 2 (fun n => ofMat callWorld.store.heap.val (callWorld.store.nodes n).mat) 5).flat =
    [163, 174, 185, 63, 74, 85] := rfl

/-- and what the program computes -/
example : ∃ w' ops st h', runCalls callProgram callWorld = .ok () w' ∧ w'.store.newGraph 5 = .ok ops st ∧
    exec ops st.heap = .ok () h' ∧ (st.nodes 5).mat.getData h' = .ok [163, 174, 185, 63, 74, 85] := ⟨_, _, _, _, rfl, rfl, rfl, rfl⟩

/-! ### C84 Flatten -/

/-- `Flatten` of a data tensor: a vector with its elements in order. -/
theorem C84_flatten_data_partial (w : World T) (m : Nat) (s : List Nat) (hpos : 0 < w.store.heap.next) (d : DataTensor w m s) :
    ∃ n w' ops st, Tensor.flatten m w = .ok n w' ∧ w'.store.newGraph n = .ok ops st ∧ (st.nodes n).mat.shape = [size s] ∧
      ∀ (h h' : Heap T) (x : STensor T), PadKept w.store.heap.next st.heap.next ops st.heap h → Holds h (w.store.nodes m).mat x →
        exec ops h = .ok () h' → (st.nodes n).mat.getData h' = .ok x.flat := by
  obtain ⟨w', h1, h2, h3, h4⟩ := C83_calls w (fun i => if i = m then some s else none) [.reshape m [size s]] hpos
    (fun i t h => by
      by_cases hi : i = m
      · simp only [hi, if_true] at h; cases h; subst hi; exact d
      · simp only [hi, if_false] at h; cases h)
    (fun c hc => by obtain rfl := List.mem_singleton.1 hc; trivial)
  obtain ⟨ops, st, k1, k2, k3⟩ := h4 w.nodeNext [size s] (by simp [shapesAfter, upd, Call.shape])
  have hsz : (w.store.nodes m).mat.getSize = size s := by
    rw [← d.shape]; exact d.good.len
  refine ⟨w.nodeNext, w', ops, st, ?_, k1, k2, fun h h' x hk hx he => ?_⟩
  · have e1 : Tensor.flatten m w = Run.newNode (Store.lazyNode (.reshape m) [size s]) w := by rw [← hsz]; rfl
    have e2 : runCalls [Call.reshape m [size s]] w = (Run.newNode (Store.lazyNode (.reshape m) [size s]) w).bind (fun _ => Run.pure ()) := rfl
    rw [h1] at e2
    rw [e1]
    cases e2; rfl
  · have H := (k3 h (fun _ => x) hk (fun i t hi => by
      by_cases him : i = m
      · rw [him]; exact hx
      · simp only [him, if_false] at hi; cases hi)).1 h' he
    have e : (valuesAfter h.val [Call.reshape m [size s]] w.nodeNext (fun _ => x) w.nodeNext) = x.reshape [size s] := by
      simp [valuesAfter, upd, Call.value]
    rw [e] at H
    rw [holds_data H]
    have hs : x.shape = s := by rw [← hx.shape]; exact d.shape
    rw [← hs]
    exact congrArg Res.ok (flat_ofValues ((Godeep.flat_length x).trans (by simp [size])))

/-- the tensors the calls make are not evaluated yet -/
theorem calls_lazy : ∀ (calls : List (Call T)) (w w' : World T), runCalls calls w = .ok () w' →
    ∀ m, w.nodeNext ≤ m → m < w.nodeNext + calls.length → (w'.store.nodes m).mat.ops = []
  | [], w, w', _, m, h1, h2 => by simp at h2; omega
  | c :: cs, w, w', hr, m, h1, h2 => by
    obtain ⟨k, own, hc⟩ := call_newNode c
    obtain ⟨w1, hw1⟩ : ∃ w1 : World T, w1 = { w with store := w.store.setNode w.nodeNext (Store.lazyNode k own), nodeNext := w.nodeNext + 1 } := ⟨_, rfl⟩
    have e1 : runCalls (c :: cs) w = runCalls cs w1 := by
      show (c.run w).bind (fun _ => runCalls cs) = _
      rw [hc, hw1]; rfl
    rw [e1] at hr
    have en : w1.nodeNext = w.nodeNext + 1 := by rw [hw1]
    by_cases hm : m = w.nodeNext
    · rw [calls_old cs w1 w' hr m (by omega), hw1, hm]
      simp [Store.setNode, Store.lazyNode]
    · exact calls_lazy cs w1 w' hr m (by omega) (by simp at h2; omega)
where
  calls_old : ∀ (calls : List (Call T)) (w w' : World T), runCalls calls w = .ok () w' →
      ∀ m, m < w.nodeNext → w'.store.nodes m = w.store.nodes m
  | [], w, w', hr, m, _ => by cases hr; rfl
  | c :: cs, w, w', hr, m, h => by
    obtain ⟨k, own, hc⟩ := call_newNode c
    obtain ⟨w1, hw1⟩ : ∃ w1 : World T, w1 = { w with store := w.store.setNode w.nodeNext (Store.lazyNode k own), nodeNext := w.nodeNext + 1 } := ⟨_, rfl⟩
    have e1 : runCalls (c :: cs) w = runCalls cs w1 := by
      show (c.run w).bind (fun _ => runCalls cs) = _
      rw [hc, hw1]; rfl
    rw [e1] at hr
    rw [calls_old cs w1 w' hr m (by rw [hw1]; show m < w.nodeNext + 1; omega), hw1]
    have : m ≠ w.nodeNext := by omega
    simp [Store.setNode, this]

theorem runCalls_append : ∀ (a b : List (Call T)) (w w' : World T), runCalls a w = .ok () w' → runCalls (a ++ b) w = runCalls b w'
  | [], b, w, w', h => by cases h; rfl
  | c :: a, b, w, w', h => by
    show (c.run w).bind (fun _ => runCalls (a ++ b)) = _
    have h' : (c.run w).bind (fun _ => runCalls a) = .ok () w' := h
    cases hc : c.run w with
    | ok n w1 => rw [hc] at h'; exact runCalls_append a b w1 w' h'
    | err e w1 => rw [hc] at h'; cases h'
    | panic => rw [hc] at h'; cases h'

theorem shapesAfter_append : ∀ (a b : List (Call T)) (n : Nat) (sh : Nat → Option (List Nat)),
    shapesAfter (a ++ b) n sh = shapesAfter b (n + a.length) (shapesAfter a n sh)
  | [], b, n, sh => rfl
  | c :: a, b, n, sh => by
    show shapesAfter (a ++ b) (n + 1) _ = shapesAfter b (n + (a.length + 1)) (shapesAfter a (n + 1) _)
    rw [shapesAfter_append]
    congr 1; omega

/-- `Flatten` of a tensor that one of the functions of package `tensor` made and no graph has evaluated, of any shape: the
result is an empty tensor, not a vector with the elements of the tensor. -/
theorem C84_flatten_pending (w : World T) (sh : Nat → Option (List Nat)) (calls : List (Call T)) (hpos : 0 < w.store.heap.next)
    (hdata : ∀ m s, sh m = some s → DataTensor w m s) (hscal : ∀ c ∈ calls, c.scalarOK w.store.heap)
    (m : Nat) (s : List Nat) (hm : w.nodeNext ≤ m) (hs : shapesAfter calls w.nodeNext sh m = some s) :
    ∃ w1 n w2 ops st, runCalls calls w = .ok () w1 ∧ Tensor.flatten m w1 = .ok n w2 ∧ w2.store.newGraph n = .ok ops st ∧
      (st.nodes n).mat.shape = [0] ∧ (st.nodes n).mat.ops = [] := by
  obtain ⟨w1, e1, h1, -, h1'⟩ := C83_calls w sh calls hpos hdata hscal
  have hsc : ∀ c ∈ calls ++ [Call.reshape m [0]], c.scalarOK w.store.heap := by
    intro c hc
    rcases List.mem_append.1 hc with h | h
    · exact hscal c h
    · obtain rfl := List.mem_singleton.1 h; trivial
  obtain ⟨w2, e2, h2, -, h4⟩ := C83_calls w sh (calls ++ [.reshape m [0]]) hpos hdata hsc
  obtain ⟨w1', e1', -, -, hn, -, -, hp⟩ := run_calls calls w sh (fun val m => ofMat val (w.store.nodes m).mat) hscal
    fun m s hm => data_pend (hdata m s hm)
  rw [e1] at e1'; cases e1'
  have hlt : m < w1.nodeNext := (hp m s hs).lt
  rw [runCalls_append _ _ _ _ e1] at e2
  obtain ⟨ops, st, k1, k2, -⟩ := h4 (w.nodeNext + calls.length) [0] (by
    rw [shapesAfter_append]; simp [shapesAfter, upd, Call.shape, hs])
  have hops := calls_lazy calls w w1 e1 m hm (by omega)
  have hfl : Tensor.flatten m w1 = Run.newNode (Store.lazyNode (.reshape m) [0]) w1 := by
    show Run.newNode (Store.lazyNode (.reshape m) [(w1.store.nodes m).mat.getSize]) w1 = _
    unfold Mat.getSize
    rw [hops]; rfl
  have e3 : (Run.newNode (Store.lazyNode (.reshape m) [0]) w1).bind (fun _ => Run.pure ()) = Out.ok () w2 := e2
  have e4 : Run.newNode (Store.lazyNode (.reshape m) [0]) w1 = .ok w1.nodeNext w2 := by cases e3; rfl
  refine ⟨w1, w1.nodeNext, w2, ops, st, e1, hfl.trans e4, hn ▸ k1, by rw [hn]; exact k2, ?_⟩
  obtain ⟨w2', e2', -, -, -, -, -, hp2⟩ := run_calls (calls ++ [.reshape m [0]]) w sh (fun val m => ofMat val (w.store.nodes m).mat) hsc
    fun m s hm => data_pend (hdata m s hm)
  rw [runCalls_append _ _ _ _ e1, e2] at e2'; cases e2'
  have P := hp2 (w.nodeNext + calls.length) [0] (by rw [shapesAfter_append]; simp [shapesAfter, upd, Call.shape, hs])
  have hpos2 : 0 < w2.store.heap.next := by rw [h2]; exact hpos
  obtain ⟨B, -⟩ := newGraph_ok P.expr hpos2 k1
  have g := (B.done _ (.refl _)).2.len
  rw [hn]
  rw [k2] at g
  exact List.length_eq_zero_iff.1 (by rw [g]; rfl)

/-- the hypotheses are met: tensor 4 of the program above has three elements -/
example : 2 ≤ 4 ∧ shapesAfter callProgram 2 callShapes 4 = some [3] ∧
    (∃ w1 n w2 ops st h', runCalls callProgram callWorld = .ok () w1 ∧ Tensor.flatten 4 w1 = .ok n w2 ∧ w2.store.newGraph n = .ok ops st ∧
      exec ops st.heap = .ok () h' ∧ (st.nodes 4).mat.getData h' = .ok [163, 174, 185] ∧ (st.nodes n).mat.getData h' = .ok []) :=
  ⟨by decide, rfl, _, _, _, _, _, _, rfl, rfl, rfl, rfl, rfl, rfl⟩

end Godeep.Props
