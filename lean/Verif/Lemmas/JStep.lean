import Verif.Lemmas.JMake
import Verif.Lemmas.GFF
/-
  `Compile` of the models that `FromModels` joins, one after the other.
-/
set_option linter.unusedSectionVars false

namespace Godeep
open Spec GoNum

variable {T : Type} [GoNum T]

theorem outShapes_app (A B : List (LSpec T)) (sh : List Nat) : outShapes (A ++ B) sh = outShapes B (outShapes A sh) := by
  induction A generalizing sh with
  | nil => rfl
  | cons l A ih => exact ih _

theorem safe_app {A B : List (LSpec T)} {sh : List Nat} : Safe (A ++ B) sh ↔ Safe A sh ∧ Safe B (outShapes A sh) := by
  induction A generalizing sh with
  | nil => simp [Safe, outShapes]
  | cons l A ih => simp only [List.cons_append, Safe, ih, outShapes, and_assoc]

theorem netFn_app {A B : List (LSpec T)} {pv : List (List (STensor T))} (x : STensor T) (h : A.length ≤ pv.length) :
    netFn (A ++ B) pv x = netFn B (pv.drop A.length) (netFn A (pv.take A.length) x) := by
  induction A generalizing pv x with
  | nil => simp [netFn]
  | cons l A ih =>
    cases pv with
    | nil => simp at h
    | cons p pv =>
      simp only [List.cons_append, netFn, List.length_cons, List.take_succ_cons, List.drop_succ_cons]
      exact ih _ (by simpa using h)

/-- the input layer of a connected model, as a layer that does nothing to tensors of shape `s` -/
def linkSpec (s : List Nat) : LSpec T := .sub s.length 0 0

theorem linkSpec_out (s : List Nat) : (linkSpec s : LSpec T).outShape s = s := by
  simp only [linkSpec, LSpec.outShape]
  exact List.set_eq_of_length_le (le_refl _)

theorem linkSpec_fn {s : List Nat} {x : STensor T} (h : x.shape.length = s.length) (p : List (STensor T)) : (linkSpec s : LSpec T).fn p x = x := by
  cases x with
  | mk sh g =>
    simp only at h
    have e : ∀ i : List Nat, i.modify s.length (fun x => x + 0) = i := fun i => by
      have : (fun x : Nat => x + 0) = id := by funext x; rfl
      rw [this]; simp
    simp only [linkSpec, LSpec.fn, STensor.slab, e]
    rw [List.set_eq_of_length_le (by omega)]

theorem Stage.link (lo : Nat) (m : Mat) {s : List Nat} (hs : m.shape = s) : Stage lo lo (fun _ => False) ([] : List (Op T)) m m [[]] (fun _ _ => False)
    (fun pv x => netFn [linkSpec s] pv x) True := by
  refine ⟨by simp, fun q hq => Or.inl hq, by simp, by simp, fun _ _ h => h.elim, fun h h' x pv _ _ H hpv he => ?_, by simp⟩
  simp only [exec, Out.ok.injEq, true_and] at he
  subst he
  match pv, hpv with
  | [p], _ =>
    show Holds h m ((linkSpec s : LSpec T).fn p x)
    rw [linkSpec_fn (by rw [← H.shape, hs])]
    exact H

/-- model `m` has been compiled, with the feed-forward graph `ops` -/
def DoneAt (w : World T) (n m : Nat) (ops : List (Op T)) : Prop :=
  (w.nets m).ff = some ops ∧ ∃ last, last < n ∧ (w.nets m).last = some last ∧ Source w last last ∧ LeafDif w last

/-- Some of the models have been compiled: together they are the layers `L`.  `N0`: the first scalar that belongs to the models. -/
structure JPre (N0 : Nat) (shape : List Nat) (L : List (LSpec T)) (d : CData T) (mz : Nat) (w : World T) : Prop extends Chained shape L d w where
  rk : (w.layers (d.b + L.length)).pre = none ∨ ∃ s : LSpec T, (w.layers (d.b + L.length)).kind = s.kind
  rff : (w.layers (d.b + L.length)).ff = true
  zout : (w.layers (d.b + L.length)).output = some d.out
  rdif : LeafDif w (d.b + L.length)
  rbuilt : (w.layers (d.b + L.length)).build = true
  rref : 0 < (w.layers (d.b + L.length)).ref ∧ (w.layers (d.b + L.length)).ref < w.store.heap.next ∧ N0 ≤ (w.layers (d.b + L.length)).ref
  kref : ∀ c, ¬ d.K (w.layers (d.b + L.length)).ref c
  nc : ∀ k ≤ L.length, ∀ l1 l2 x, (w.layers (d.b + k)).kind ≠ .concat l1 l2 x
  inp : (w.layers d.b).input = some d.inp
  znet : (w.nets mz).last = some (d.b + L.length) ∧ (w.nets mz).output = some d.out

/-- ... and others have not -/
structure JInv (w0 : World T) (shape : List Nat) (L : List (LSpec T)) (d : CData T) (m0 mz : Nat) (done : List (Nat × List (Op T)))
    (todo : List (List (LSpec T) × Nat)) (w : World T) : Prop extends JPre w0.store.heap.next shape L d mz w where
  apart : Apart w0 w
  base : d.b = w0.layerNext
  low : ∀ q ∈ d.inM.ops, w0.store.heap.next ≤ q
  lo : w0.store.heap.next ≤ d.lo
  ownlow : ∀ q, d.own q → w0.store.heap.next ≤ q
  todos : Todos true todo (d.b + L.length + 1) w
  sep : Sep (d.b + L.length + 1) (fun q => q < d.lo ∧ q ∉ d.inM.ops ∧ ¬ d.own q ∧ w0.store.heap.next ≤ q) w
  dones : ∀ p ∈ done, DoneAt w (d.b + L.length + 1) p.1 p.2
  dops : d.ops = done.flatMap Prod.snd
  mids : ∀ p ∈ todo, w0.netNext ≤ p.2 ∧ p.2 < w.netNext
  mnodup : (done.map Prod.fst ++ todo.map Prod.snd).Nodup
  fnet : (w.nets m0).first = some d.b ∧ (w.nets m0).input = some d.inp
  fdone : m0 ∈ done.map Prod.fst
  zdone : mz ∈ done.map Prod.fst

/-- what `Compile` of a connected model does not touch -/
theorem LinkRun.apart {shape : List Nat} {ls : List (LSpec T)} {m b r inp0 : Nat} {m0 : Mat} {ops : List (Op T)} {out : Nat}
    {outM : Mat} {K : Ptr → T → Prop} {w w1 w2 w' : World T} (R : LinkRun shape ls m b r inp0 m0 ops out outM K w w1 w2 w') :
    Ext w w1 ∧ Ext w2 w' ∧ Ext w w' ∧ (∀ q, q < w.store.heap.next → q ≠ (w.layers r).ref → w'.store.heap.val q = w.store.heap.val q) ∧
      (∀ l, ¬ (b ≤ l ∧ l ≤ b + ls.length) → w'.layers l = w.layers l) ∧ w'.layerNext = w.layerNext ∧ w'.netNext = w.netNext ∧
      (∀ l, ∃ bb r i, w1.layers l = { w.layers l with build := bb, ref := r, index := i }) ∧
      (∀ k, (w'.layers k).kind = (w.layers k).kind ∧ (w'.layers k).pre = (w.layers k).pre) := by
  obtain ⟨wb, rb, e1⟩ := R.refs
  have A := R.all
  have x01 : Ext w w1 := by rw [e1]; exact rb.grow.ext.trans (ext_clr wb)
  have x12 : Ext w1 w2 := A.grow.ext
  have x2' : Ext w2 w' := by
    have := R.fin.ext
    exact ⟨this.next, this.nodeNext, this.kind, this.frozen⟩
  have hsame : ∀ l, ∃ bb r i, w1.layers l = { w.layers l with build := bb, ref := r, index := i } := by rw [e1]; exact rb.same
  refine ⟨x01, x2', x01.trans (x12.trans x2'), fun q hq hr => ?_, fun l hl => ?_, ?_, ?_, hsame, fun k => ?_⟩
  · rw [show w'.store.heap.val q = w2.store.heap.val q from
      R.fin.val q (lt_of_lt_of_le hq (x01.trans x12).next) (fun h => h)]
    rw [A.grow.val q (lt_of_lt_of_le hq x01.next) ?_]
    · rw [e1]; exact rb.grow.val q hq hr
    · rintro ⟨k, hk, e⟩
      rcases Nat.eq_zero_or_pos k with h | h
      · subst h
        rw [Nat.add_zero, R.ref0] at e
        exact hr e
      · have := R.refval k hk h
        omega
  · rw [R.layers, A.grow.layers l hl, e1]
    exact rb.grow.layers l hl
  · rw [show w'.layerNext = w2.layerNext from R.fin.layerNext, A.grow.layerNext, e1]; exact rb.grow.layerNext
  · rw [show w'.netNext = w2.netNext from R.fin.netNext, A.grow.netNext, e1]; exact rb.grow.netNext
  · rw [R.layers, (A.same k).1, (A.same k).2.1]
    obtain ⟨_, _, _, e⟩ := hsame k
    rw [e]; exact ⟨rfl, rfl⟩

/-- the next model can be compiled -/
theorem JInv.made {w0 : World T} {shape : List Nat} {L : List (LSpec T)} {d : CData T} {m0 mz : Nat} {done : List (Nat × List (Op T))}
    {ls : List (LSpec T)} {m : Nat} {rest : List (List (LSpec T) × Nat)} {w : World T} (J : JInv w0 shape L d m0 mz done ((ls, m) :: rest) w)
    (hne : ls ≠ []) : LinkMade (outShapes L shape) ls m (d.b + L.length + 1) (d.b + L.length) d.out d.outM d.b w := by
  obtain ⟨t1, t2⟩ := J.todos
  have hx := Todos.next t2
  have hpre : (w.layers (d.b + L.length + 1)).pre = some (d.b + L.length) := by
    rw [t1.pre]; simp
  refine ⟨⟨J.pos, t1.kind, hpre, by omega, J.rk, J.rff, J.zout, J.rdif, t1.ff, J.rout, J.oshape, t1.wn, t1.lay, ?_⟩, J.rbuilt,
    ⟨J.rref.1, J.rref.2.1⟩, t1.new, by omega, ⟨t1.net.1, t1.net.2.1⟩, hne, by omega, ?_, fun k hk => ?_⟩
  · intro k hk q hq
    obtain ⟨a, c⟩ := J.sep (d.b + L.length + 1 + 1 + k) (by omega) (by omega) q hq
    obtain ⟨a1, a2, a3, a4⟩ := a
    refine ⟨fun h => ?_, fun k' hk' => c _ (by omega) (by omega)⟩
    rcases J.stage.out q h with h | h | h
    · exact a2 h
    · omega
    · exact a3 h
  · exact J.chain.first
  · rcases Nat.lt_trichotomy k L.length with h | h | h
    · exact J.chain.pre k h
    · subst h
      rw [show d.b + 1 + L.length = d.b + L.length + 1 by omega]; exact hpre
    · have hj : k - L.length - 1 < ls.length := by omega
      have := (t1.at hj).pre
      rw [show d.b + L.length + 1 + 1 + (k - L.length - 1) = d.b + 1 + k by omega] at this
      rw [this]; congr 1; omega

theorem range_split (a n : Nat) (f : Nat → List Mat) : (List.range (a + 1 + n)).map f =
    (List.range a).map f ++ f a :: (List.range n).map (fun k => f (a + 1 + k)) := by
  rw [show a + 1 + n = a + (1 + n) by omega, List.range_add, List.map_append, show 1 + n = n + 1 by omega, List.range_succ_eq_map]
  simp only [List.map_cons, List.map_map]
  congr 1
  congr 1
  refine List.map_congr_left fun k _ => ?_
  simp only [Function.comp]
  congr 1; omega

end Godeep
