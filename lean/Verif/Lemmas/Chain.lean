import Verif.Lemmas.FFDense
import Mathlib.Data.List.Induction
/-
  Feed-forward of a chain of layers.
-/
set_option linter.unusedSectionVars false

namespace Godeep
open Spec GoNum

variable {T : Type} [GoNum T]

/-- assignment to fields of layer `l` -/
def updL (l : Nat) (f : Layer T → Layer T) (w : World T) : World T :=
  { w with layers := fun k => if k = l then f (w.layers k) else w.layers k }

@[simp] theorem updL_store (l : Nat) (f : Layer T → Layer T) (w : World T) : (updL l f w).store = w.store := rfl
@[simp] theorem updL_nodeNext (l : Nat) (f : Layer T → Layer T) (w : World T) : (updL l f w).nodeNext = w.nodeNext := rfl
@[simp] theorem updL_same (l : Nat) (f : Layer T → Layer T) (w : World T) : (updL l f w).layers l = f (w.layers l) := by
  simp [updL]
theorem updL_ne {l k : Nat} (f : Layer T → Layer T) (w : World T) (h : k ≠ l) : (updL l f w).layers k = w.layers k := by
  simp [updL, h]

theorem grow_updL {L : Nat → Prop} {C : Ptr → Prop} {l : Nat} (hl : L l) (f : Layer T → Layer T) (w : World T) :
    Grow L C [] w (updL l f w) := grow_modify hl f w

/-- the scalars of the output tensor a dense layer made when it was created -/
def ownCell (w : World T) (l : Nat) (q : Ptr) : Prop :=
  match (w.layers l).kind, (w.layers l).output with
  | .dense, some o => q ∈ (w.store.nodes o).mat.ops
  | _, _ => False

/-- a dense layer's output tensor -/
def OwnOK (s : LSpec T) (w : World T) (l : Nat) : Prop :=
  match s with
  | .dense n _ => ∃ o m, (w.layers l).output = some o ∧ Ready w o m ∧ m.shape = [n] ∧ m.ops.Nodup
  | _ => True

/-- what holds when the feed-forward part of layer `l` is about to be built -/
structure FFPre (s : LSpec T) (w : World T) (fuel l p inp : Nat) (inM : Mat) : Prop where
  pos : 0 < w.store.heap.next
  kind : (w.layers l).kind = s.kind
  act : (w.layers l).act = s.act
  input : (w.layers l).input = some inp
  rin : Ready w inp inM
  ne : p ≠ l
  res : ∃ r, r ≠ l ∧ Source w p r ∧ (w.layers r).output = some inp ∧ (p ≠ r → ∃ n < fuel, Via w n p r)
  fuel : 0 < fuel
  refl : 0 < (w.layers l).ref
  refp : 0 < (w.layers p).ref
  refb : (w.layers p).ref < w.store.heap.next ∧ (w.layers l).ref < w.store.heap.next
  own : OwnOK s w l
  odis : ∀ q, ownCell w l q → q ∉ inM.ops
  fits : s.fits inM.shape
  wn : (w.layers l).weights = none ∧ (w.layers l).bias = none

/-- the layer's feed-forward part is built as specified -/
def FFGood (s : LSpec T) : Prop :=
  ∀ (w : World T) (fuel l p inp : Nat) (inM : Mat), FFPre s w fuel l p inp inM →
    wp True (LayerM.ffBody fuel l s.kind (some p)) (fun _ w' => ∃ ops out outM K,
      FFDone s l (ownCell w l) (· = (w.layers p).ref) inM ops out outM K w w' ∧ FFMore s l p inM ops outM K w w') w

theorem ffGood_dense (n : Nat) (act : Activation T) : FFGood (.dense n act) := by
  intro w fuel l p inp inM P
  obtain ⟨o, m, h1, h2, h3, h4⟩ := P.own
  have how : ∀ q, ownCell w l q ↔ q ∈ m.ops := fun q => by
    simp only [ownCell, P.kind, LSpec.kind, h1, h2.mat]
  have e : ownCell w l = (· ∈ m.ops) := funext fun q => propext (how q)
  rw [e]
  refine wp_mono (denseFF_done (R := (· = (w.layers p).ref)) (p := p) P.pos P.act P.input P.rin h1 h2 h3 h4
    (fun q hq => P.odis q ((how q).2 hq)) P.refb.1) ?_
  rintro _ w' ⟨ops, K, F⟩
  exact ⟨ops, o, m, K, F⟩

/-- how the worlds before and after building the feed-forward part of a chain are related, layer by
layer; layer `b` is the input layer -/
inductive FFTrace (b : Nat) : List (LSpec T) → List (Op T) → (Ptr → T → Prop) → World T → World T → Prop where
  | nil {w w' : World T} : LayerM.inputFF b (updL b (fun x => { x with ff := true }) w) = .ok () w' →
      FFTrace b [] [] (fun _ _ => False) w w'
  | snoc {ls : List (LSpec T)} {s : LSpec T} {o1 o2 : List (Op T)} {K1 K2 : Ptr → T → Prop} {w w1 w1' w2 : World T}
      {fuel inp out : Nat} {inM outM : Mat} :
      FFTrace b ls o1 K1 (updL (b + 1 + ls.length) (fun x => { x with ff := true }) w) w1 →
      w1' = updL (b + 1 + ls.length) (fun x => { x with input := (w1.layers (b + ls.length)).output }) w1 →
      LayerM.ffBody fuel (b + 1 + ls.length) s.kind (some (b + ls.length)) w1' = .ok () w2 →
      FFPre s w1' fuel (b + 1 + ls.length) (b + ls.length) inp inM →
      Source w1' (b + ls.length) (b + ls.length) →
      FFDone s (b + 1 + ls.length) (ownCell w1' (b + 1 + ls.length)) (· = (w1'.layers (b + ls.length)).ref) inM o2 out outM K2 w1' w2 →
      FFMore s (b + 1 + ls.length) (b + ls.length) inM o2 outM K2 w1' w2 →
      FFTrace b (ls ++ [s]) (o1 ++ o2) (fun q v => K1 q v ∨ K2 q v) w w2

/-- layer `l` as made by its constructor and pushed after layer `l - 1` -/
structure LayerAt (s : LSpec T) (w : World T) (l : Nat) : Prop where
  kind : (w.layers l).kind = s.kind
  act : (w.layers l).act = s.act
  pre : (w.layers l).pre = some (l - 1)
  ff : (w.layers l).ff = false
  own : OwnOK s w l
  wn : (w.layers l).weights = none ∧ (w.layers l).bias = none

/-- the layers `b`, `b + 1`, ... are a chain starting with an input layer -/
structure SeqBase (shape : List Nat) (ls : List (LSpec T)) (b inp0 : Nat) (m0 : Mat) (w : World T) : Prop where
  pos : 0 < w.store.heap.next
  kind : (w.layers b).kind = .input
  pre : (w.layers b).pre = none
  ff : (w.layers b).ff = false
  input : (w.layers b).input = some inp0
  rin : Ready w inp0 m0
  shape : m0.shape = shape
  nodup : m0.ops.Nodup
  wn : (w.layers b).weights = none ∧ (w.layers b).bias = none
  lay : ∀ k s, ls[k]? = some s → LayerAt s w (b + 1 + k)
  dis : ∀ k, k < ls.length → ∀ q, ownCell w (b + 1 + k) q → q ∉ m0.ops ∧
    ∀ k', k' < k → ¬ ownCell w (b + 1 + k') q

/-- ... and is ready for feed-forward -/
structure SeqAt (shape : List Nat) (ls : List (LSpec T)) (b inp0 : Nat) (m0 : Mat) (w : World T) : Prop
    extends SeqBase shape ls b inp0 m0 w where
  ref : ∀ k, k ≤ ls.length → 0 < (w.layers (b + k)).ref ∧ (w.layers (b + k)).ref < w.store.heap.next ∧
    eq (w.store.heap.val (w.layers (b + k)).ref) zero = false

/-- what building the feed-forward part of a chain has done -/
structure FFAll (shape : List Nat) (ls : List (LSpec T)) (b : Nat) (m0 : Mat) (ops : List (Op T)) (out : Nat)
    (outM : Mat) (K : Ptr → T → Prop) (w w' : World T) : Prop where
  grow : Grow (fun l => b ≤ l ∧ l ≤ b + ls.length) (fun q => ∃ k ≤ ls.length, q = (w.layers (b + k)).ref) ops w w'
  same : ∀ l, (w'.layers l).kind = (w.layers l).kind ∧ (w'.layers l).pre = (w.layers l).pre ∧
    (w'.layers l).act = (w.layers l).act ∧ (w'.layers l).trainable = (w.layers l).trainable ∧
    (w'.layers l).bp = (w.layers l).bp ∧ (w'.layers l).saved = (w.layers l).saved ∧
    (w'.layers l).loaded = (w.layers l).loaded ∧ (w'.layers l).build = (w.layers l).build
  ffs : ∀ k ≤ ls.length, (w'.layers (b + k)).ff = true
  refp : ∀ k ≤ ls.length, ∃ j ≤ ls.length, (w'.layers (b + k)).ref = (w.layers (b + j)).ref
  input : (w'.layers b).input = (w.layers b).input
  output : (w'.layers (b + ls.length)).output = some out
  ready : Ready w' out outM
  oshape : outM.shape = outShapes ls shape
  stage : Stage w.store.heap.next w'.store.heap.next (fun q => ∃ k < ls.length, ownCell w (b + 1 + k) q) ops m0 outM
    ((List.range ls.length).map fun k => layerParams w' (b + 1 + k)) K (netFn ls) (Safe ls shape)
  kept : ∀ q c, K q c → w'.store.heap.val q = c
  pshape : ∀ k s, ls[k]? = some s → (layerParams w' (b + 1 + k)).map Mat.shape =
    s.paramShapes (outShapes (ls.take k) shape)
  pready : ∀ k < ls.length, ∀ n, ((w'.layers (b + 1 + k)).weights = some n ∨ (w'.layers (b + 1 + k)).bias = some n) →
    ∃ m, Ready w' n m ∧ m.ops.Nodup
  both : ∀ k ≤ ls.length, ((w'.layers (b + k)).weights = none ↔ (w'.layers (b + k)).bias = none)
  wn : (w'.layers b).weights = none ∧ (w'.layers b).bias = none
  pdist : (((List.range ls.length).map fun k => layerParams w' (b + 1 + k)).flatten.flatMap Mat.ops).Nodup
  trace : FFTrace b ls ops K w w'

theorem Ready.updL {w : World T} {n : Nat} {m : Mat} (r : Ready w n m) (l : Nat) (f : Layer T → Layer T) :
    Ready (updL l f w) n m := ⟨r.lt, r.mat, r.frozen, r.good, r.kids, r.scal, r.expr⟩

theorem ownCell_congr {w w' : World T} {l : Nat} (h1 : (w'.layers l).kind = (w.layers l).kind)
    (h1' : (w'.layers l).output = (w.layers l).output)
    (h2 : ∀ o, (w.layers l).kind = .dense → (w.layers l).output = some o → (w'.store.nodes o).mat = (w.store.nodes o).mat)
    (q : Ptr) : ownCell w' l q ↔ ownCell w l q := by
  unfold ownCell
  rw [h1, h1']
  split
  · next k o hk ho => rw [h2 o hk ho]
  · rfl

theorem OwnOK.mat {s : LSpec T} {w : World T} {l : Nat} (h : OwnOK s w l) (hk : (w.layers l).kind = s.kind)
    {o : Nat} (hd : (w.layers l).kind = .dense) (ho : (w.layers l).output = some o) : ∃ m, Ready w o m := by
  cases s with
  | dense n a =>
    obtain ⟨o', m, h1, h2, _⟩ := h
    rw [h1] at ho; cases ho
    exact ⟨m, h2⟩
  | _ => rw [hd] at hk; simp [LSpec.kind] at hk

theorem LayerAt.grow {s : LSpec T} {L : Nat → Prop} {C : Ptr → Prop} {new : List (Op T)} {w w' : World T} {l : Nat}
    (h : LayerAt s w l) (g : Grow L C new w w') (hl : ¬ L l) : LayerAt s w' l := by
  have e := g.layers l hl
  refine ⟨by rw [e]; exact h.kind, by rw [e]; exact h.act, by rw [e]; exact h.pre, by rw [e]; exact h.ff, ?_,
    by rw [e]; exact h.wn⟩
  cases s with
  | dense n a =>
    obtain ⟨o', m, h1, h2, h3⟩ := h.own
    exact ⟨o', m, by rw [e]; exact h1, h2.grow g, h3⟩
  | _ => trivial

theorem LayerAt.updL {s : LSpec T} {w : World T} {l k : Nat} {f : Layer T → Layer T} (h : LayerAt s w l) (hl : l ≠ k) :
    LayerAt s (updL k f w) l :=
  h.grow (grow_modify (L := (· = k)) (C := fun _ => False) rfl f w) hl

theorem LayerAt.own_grow {s : LSpec T} {L : Nat → Prop} {C : Ptr → Prop} {new : List (Op T)} {w w' : World T} {l : Nat}
    (h : LayerAt s w l) (g : Grow L C new w w') (hl : ¬ L l) (q : Ptr) : ownCell w' l q ↔ ownCell w l q := by
  refine ownCell_congr (by rw [g.layers l hl]) (by rw [g.layers l hl]) (fun o hk ho => ?_) q
  obtain ⟨m, hm⟩ := h.own.mat h.kind hk ho
  rw [(hm.grow g).mat, hm.mat]

theorem LayerAt.own_lt {s : LSpec T} {w : World T} {l : Nat} (h : LayerAt s w l) {q : Ptr} (hq : ownCell w l q) :
    q < w.store.heap.next := by
  unfold ownCell at hq
  split at hq
  · next k o hk ho =>
    obtain ⟨m, hm⟩ := h.own.mat h.kind hk ho
    rw [hm.mat] at hq
    exact (hm.good.valid q hq).2
  · exact hq.elim

theorem outShapes_append (ls : List (LSpec T)) (s : LSpec T) (sh : List Nat) :
    outShapes (ls ++ [s]) sh = s.outShape (outShapes ls sh) := by
  induction ls generalizing sh with
  | nil => rfl
  | cons l ls ih => exact ih _

theorem fits_append {ls : List (LSpec T)} {s : LSpec T} {sh : List Nat} :
    Fits (ls ++ [s]) sh ↔ Fits ls sh ∧ s.fits (outShapes ls sh) := by
  induction ls generalizing sh with
  | nil => simp [Fits, outShapes]
  | cons l ls ih => simp only [List.cons_append, Fits, ih, outShapes, and_assoc]

theorem safe_append {ls : List (LSpec T)} {s : LSpec T} {sh : List Nat} :
    Safe (ls ++ [s]) sh ↔ Safe ls sh ∧ s.safe (outShapes ls sh) := by
  induction ls generalizing sh with
  | nil => simp [Safe, outShapes]
  | cons l ls ih => simp only [List.cons_append, Safe, ih, outShapes, and_assoc]

theorem netFn_append {ls : List (LSpec T)} {s : LSpec T} {pv : List (List (STensor T))} {p : List (STensor T)}
    (h : pv.length = ls.length) (x : STensor T) : netFn (ls ++ [s]) (pv ++ [p]) x = s.fn p (netFn ls pv x) := by
  induction ls generalizing pv x with
  | nil =>
    have : pv = [] := List.length_eq_zero_iff.1 h
    subst this; rfl
  | cons l ls ih =>
    cases pv with
    | nil => simp at h
    | cons q pv => exact ih (by simpa using h) _

theorem SeqAt.init {shape : List Nat} {ls : List (LSpec T)} {s : LSpec T} {b inp0 : Nat} {m0 : Mat} {w : World T}
    (S : SeqAt shape (ls ++ [s]) b inp0 m0 w) (f : Layer T → Layer T) :
    SeqAt shape ls b inp0 m0 (updL (b + 1 + ls.length) f w) := by
  have hlt : ∀ k, k ≤ ls.length → b + k ≠ b + 1 + ls.length := fun k hk => by omega
  have e0 : (updL (b + 1 + ls.length) f w).layers b = w.layers b := updL_ne f w (by omega)
  have hlay : ∀ k s', ls[k]? = some s' → LayerAt s' w (b + 1 + k) := fun k s' h => S.lay k s' (by
    rw [List.getElem?_append_left (List.getElem?_eq_some_iff.1 h).1]; exact h)
  have hown : ∀ k, k < ls.length → ∀ q, ownCell (updL (b + 1 + ls.length) f w) (b + 1 + k) q ↔ ownCell w (b + 1 + k) q :=
    fun k hk q => by
    have e : (updL (b + 1 + ls.length) f w).layers (b + 1 + k) = w.layers (b + 1 + k) := updL_ne f w (by omega)
    exact ownCell_congr (w := w) (congrArg Layer.kind e) (congrArg Layer.output e) (fun _ _ _ => rfl) q
  refine ⟨⟨S.pos, by rw [e0]; exact S.kind, by rw [e0]; exact S.pre, by rw [e0]; exact S.ff,
    by rw [e0]; exact S.input, S.rin.updL _ _, S.shape, S.nodup, by rw [e0]; exact S.wn, ?_, ?_⟩, ?_⟩
  · intro k s' h
    have := (List.getElem?_eq_some_iff.1 h).1
    exact (hlay k s' h).updL (by omega)
  · intro k hk q hq
    obtain ⟨h1, h2⟩ := S.dis k (by simp; omega) q ((hown k hk q).1 hq)
    refine ⟨h1, fun k' hk' hq' => h2 k' hk' ((hown k' (by omega) q).1 hq')⟩
  · intro k hk
    have e : (updL (b + 1 + ls.length) f w).layers (b + k) = w.layers (b + k) := updL_ne f w (hlt k hk)
    rw [e]
    exact S.ref k (by simp; omega)

theorem delegated_ok {field : Layer T → Option Nat} {fuel p : Nat} {w : World T} (hf : 0 < fuel)
    (h : (w.layers p).pre = none ∨ ∃ s : LSpec T, (w.layers p).kind = s.kind) :
    LayerM.delegated field fuel p w = .ok (field (w.layers p)) w := by
  obtain ⟨f, rfl⟩ : ∃ f, fuel = f + 1 := ⟨fuel - 1, by omega⟩
  have hd : LayerM.delegated field (f + 1) p w = (match (w.layers p).kind, (w.layers p).pre with
    | .input, some p => LayerM.delegated field f p
    | _, _ => pure (field (w.layers p)) : Run T (Option Nat)) w := rfl
  rw [hd]
  rcases h with h | ⟨s, h⟩
  · rw [h]
    cases (w.layers p).kind <;> rfl
  · rw [h]
    cases s <;> rfl

theorem delegated_via {field : Layer T → Option Nat} {fuel n p r : Nat} {w : World T} (v : Via w n p r) (hf : n < fuel)
    (h : (w.layers r).pre = none ∨ ∃ s : LSpec T, (w.layers r).kind = s.kind) : LayerM.delegated field fuel p w = .ok (field (w.layers r)) w := by
  induction v generalizing fuel with
  | @one p r h1 h2 =>
    obtain ⟨f, rfl⟩ : ∃ f, fuel = f + 1 := ⟨fuel - 1, by omega⟩
    have hd : LayerM.delegated field (f + 1) p w = (match (w.layers p).kind, (w.layers p).pre with
      | .input, some p => LayerM.delegated field f p
      | _, _ => pure (field (w.layers p)) : Run T (Option Nat)) w := rfl
    rw [hd, h1, h2]
    exact delegated_ok (by omega) h
  | @more n p q r h1 h2 _ ih =>
    obtain ⟨f, rfl⟩ : ∃ f, fuel = f + 1 := ⟨fuel - 1, by omega⟩
    have hd : LayerM.delegated field (f + 1) p w = (match (w.layers p).kind, (w.layers p).pre with
      | .input, some p => LayerM.delegated field f p
      | _, _ => pure (field (w.layers p)) : Run T (Option Nat)) w := rfl
    rw [hd, h1, h2]
    exact ih (by omega) h

theorem delegated_src {field : Layer T → Option Nat} {fuel p r : Nat} {w : World T} (hf : 0 < fuel) (h : Source w p r)
    (hf2 : p ≠ r → ∃ n < fuel, Via w n p r) : LayerM.delegated field fuel p w = .ok (field (w.layers r)) w := by
  by_cases e : p = r
  · subst e; exact delegated_ok hf h.1
  · obtain ⟨n, hn, v⟩ := hf2 e
    exact delegated_via v hn h.1

theorem Source.congr {w w' : World T} {p r : Nat} (h : Source w p r) (hk : ∀ k, (w.layers k).kind = .input → w'.layers k = w.layers k)
    (hr : w'.layers r = w.layers r) : Source w' p r := by
  refine ⟨by rw [hr]; exact h.1, h.2.imp id ?_⟩
  rintro ⟨n, v⟩
  exact ⟨n, v.congr hk⟩

theorem value_ok {w : World T} {p : Ptr} (hp : 0 < p) : Run.value p w = .ok (w.store.heap.val p) w := by
  simp only [Run.value, load_pos hp, Out.ofRes]

theorem ff_unfold {s : LSpec T} {f l p : Nat} {w : World T} (hff : (w.layers l).ff = false)
    (hk : (w.layers l).kind = s.kind) (hp : (w.layers l).pre = some p) (hr : 0 < (w.layers l).ref)
    (hv : eq (w.store.heap.val (w.layers l).ref) zero = false) :
    LayerM.feedForward (f + 1) l w = ((do
      LayerM.feedForward f p
      let o ← LayerM.getOutputs f p
      Run.modify l fun x => { x with input := o }
      LayerM.ffBody f l s.kind (some p) : Run T Unit)) (updL l (fun x => { x with ff := true }) w) := by
  have e : LayerM.feedForward (f + 1) l w = ((do
      if (w.layers l).ff then return () else
        let v ← Run.value (w.layers l).ref
        if eq v zero then return () else
          Run.modify l fun x => { x with ff := true }
          match (w.layers l).kind with
          | .input =>
            match (w.layers l).pre with
            | some p => LayerM.feedForward f p
            | none => LayerM.ffBody f l (w.layers l).kind (w.layers l).pre
          | .concat l1 l2 _ => do
            LayerM.feedForward f l1
            LayerM.feedForward f l2
            LayerM.ffBody f l (w.layers l).kind (w.layers l).pre
          | _ => do
            match (w.layers l).pre with
            | some p =>
              LayerM.feedForward f p
              let o ← LayerM.getOutputs f p
              Run.modify l fun x => { x with input := o }
            | none => pure ()
            LayerM.ffBody f l (w.layers l).kind (w.layers l).pre : Run T Unit)) w := rfl
  rw [e, hff, hk, hp]
  show (Run.value (w.layers l).ref w).bind _ = _
  rw [value_ok hr]
  show (if eq (w.store.heap.val (w.layers l).ref) zero then _ else _ : Run T Unit) w = _
  rw [hv]
  cases s <;> rfl

theorem ff_unfold_in {f l : Nat} {w : World T} (hff : (w.layers l).ff = false)
    (hk : (w.layers l).kind = .input) (hp : (w.layers l).pre = none) (hr : 0 < (w.layers l).ref)
    (hv : eq (w.store.heap.val (w.layers l).ref) zero = false) :
    LayerM.feedForward (f + 1) l w = LayerM.inputFF l (updL l (fun x => { x with ff := true }) w) := by
  have e : LayerM.feedForward (f + 1) l w = ((do
      if (w.layers l).ff then return () else
        let v ← Run.value (w.layers l).ref
        if eq v zero then return () else
          Run.modify l fun x => { x with ff := true }
          match (w.layers l).kind with
          | .input =>
            match (w.layers l).pre with
            | some p => LayerM.feedForward f p
            | none => LayerM.ffBody f l (w.layers l).kind (w.layers l).pre
          | .concat l1 l2 _ => do
            LayerM.feedForward f l1
            LayerM.feedForward f l2
            LayerM.ffBody f l (w.layers l).kind (w.layers l).pre
          | _ => do
            match (w.layers l).pre with
            | some p =>
              LayerM.feedForward f p
              let o ← LayerM.getOutputs f p
              Run.modify l fun x => { x with input := o }
            | none => pure ()
            LayerM.ffBody f l (w.layers l).kind (w.layers l).pre : Run T Unit)) w := rfl
  rw [e, hff, hk, hp]
  show (Run.value (w.layers l).ref w).bind _ = _
  rw [value_ok hr]
  show (if eq (w.store.heap.val (w.layers l).ref) zero then _ else _ : Run T Unit) w = _
  rw [hv]
  rfl

/-- also remembers the equation -/
theorem wp_eq {tot : Prop} {α : Type} {a : Run T α} {Q : α → World T → Prop} {w : World T} (h : wp tot a Q w) :
    wp tot a (fun r w' => Q r w' ∧ a w = .ok r w') w := by
  unfold wp at h ⊢
  cases e : a w with
  | ok r w' => rw [e] at h; exact ⟨h, rfl⟩
  | err _ _ => rw [e] at h; exact h
  | panic => rw [e] at h; exact h

theorem ff_input {shape : List Nat} {b inp0 : Nat} {m0 : Mat} {w : World T}
    (S : SeqAt shape [] b inp0 m0 w) (f : Nat) :
    wp True (LayerM.feedForward (f + 1) b) (fun _ w' => ∃ ops out outM K, FFAll shape [] b m0 ops out outM K w w') w := by
  obtain ⟨r1, r2, r3⟩ := S.ref 0 (Nat.zero_le _)
  have e := ff_unfold_in (f := f) S.ff S.kind S.pre r1 r3
  simp only [Nat.add_zero] at r1 r2 r3
  suffices h : wp True (LayerM.inputFF b) (fun _ w' => ∃ ops out outM K, FFAll shape [] b m0 ops out outM K w w')
      (updL b (fun x => { x with ff := true }) w) by
    unfold wp at h ⊢; rw [e]; exact h
  have H : wp True (LayerM.inputFF b) (fun _ w' => ∃ dif,
      Grow (· = b) (fun _ => False) [] (updL b (fun x => { x with ff := true }) w) w' ∧
      w'.layers b = { w.layers b with ff := true, neta := some inp0, output := some inp0, dif := some dif })
      (updL b (fun x => { x with ff := true }) w) := by
    unfold LayerM.inputFF
    refine wp_bind (wp_layer ?_)
    refine wp_bind (wp_deref (a := inp0) (by rw [updL_same]; exact S.input) ?_)
    refine wp_bind (wp_modify ?_)
    set w1 := updL b (fun x => { x with ff := true }) w with hw1
    have m1 := grow_modify (L := (· = b)) (C := fun _ => False) rfl (fun x => { x with neta := some inp0, output := some inp0 }) w1
    unfold LayerM.zeroDif
    refine wp_bind (wp_mat ?_)
    refine wp_bind (wp_zeros (L := (· = b)) (C := fun _ => False) S.pos fun w2 difM g2 l2 x2 r2 s2 nd2 f2 => ?_)
    refine wp_modify ⟨w.nodeNext, ?_, ?_⟩
    rotate_left
    · simp only [if_true, l2]
      rw [hw1, updL_same, updL_nodeNext]
    · have m2 := grow_modify (L := (· = b)) (C := fun _ => False) rfl (fun x => { x with dif := some w1.nodeNext }) w2
      simpa using m1.trans (g2.trans m2)
  refine wp_mono (wp_eq H) ?_
  rintro _ w' ⟨⟨dif, g, hl⟩, he⟩
  have g0 := grow_modify (L := (· = b)) (C := fun _ => False) rfl (fun x => { x with ff := true }) w
  have G : Grow (· = b) (fun _ => False) [] w w' := by simpa using g0.trans g
  have hsame : ∀ l, l ≠ b → w'.layers l = w.layers l := fun l hl => G.layers l hl
  refine ⟨[], inp0, m0, fun _ _ => False, ?_, ?_, ?_, ?_, ?_, ?_, S.rin.grow G, S.shape, ?_, ?_, ?_, ?_, ?_, ?_, by simp, .nil he⟩
  · exact G.weaken (fun l hl => ⟨by omega, by simp; omega⟩) fun _ h => h.elim
  · intro l
    by_cases h : l = b
    · subst h; rw [hl]; simp
    · rw [hsame l h]; simp
  · intro k hk
    have : k = 0 := by simpa using hk
    subst this
    simp [hl]
  · intro k hk
    have : k = 0 := by simpa using hk
    subst this
    exact ⟨0, le_refl _, by simp only [Nat.add_zero]; rw [hl]⟩
  · rw [hl]
  · simp [hl]
  · exact ((Stage.nil w.store.heap.next m0).mono G.next (fun _ h => h.elim) (fun pv x _ => by
      simp [netFn]) (fun _ => trivial))
  · exact fun _ _ h => h.elim
  · simp
  · simp
  · intro k hk
    have : k = 0 := by simpa using hk
    subst this
    simp only [Nat.add_zero]
    rw [hl]
    simp [S.wn]
  · rw [hl]; exact S.wn

theorem layerParams_grow {L : Nat → Prop} {C : Ptr → Prop} {new : List (Op T)} {w w' : World T} {l : Nat}
    (g : Grow L C new w w') (hl : ¬ L l)
    (hr : ∀ n, ((w.layers l).weights = some n ∨ (w.layers l).bias = some n) → ∃ m, Ready w n m ∧ m.ops.Nodup) :
    layerParams w' l = layerParams w l := by
  unfold layerParams
  rw [g.layers l hl]
  split
  · next a b ha hb =>
    obtain ⟨ma, ra, _⟩ := hr a (Or.inl ha)
    obtain ⟨mb, rb, _⟩ := hr b (Or.inr hb)
    rw [(ra.grow g).mat, (rb.grow g).mat, ra.mat, rb.mat]
  · rfl

theorem ff_step {shape : List Nat} {ls : List (LSpec T)} {s : LSpec T} {b inp0 f : Nat} {m0 : Mat} {w w1 : World T}
    (S : SeqAt shape (ls ++ [s]) b inp0 m0 w) (hf : 0 < f) (hg : FFGood s)
    (hfit : s.fits (outShapes ls shape)) {ops : List (Op T)} {out : Nat} {outM : Mat} {K : Ptr → T → Prop}
    (A : FFAll shape ls b m0 ops out outM K (updL (b + 1 + ls.length) (fun x => { x with ff := true }) w) w1) :
    wp True (do
      let o ← LayerM.getOutputs f (b + ls.length)
      Run.modify (b + 1 + ls.length) fun x => { x with input := o }
      LayerM.ffBody f (b + 1 + ls.length) s.kind (some (b + ls.length)) : Run T Unit)
      (fun _ w' => ∃ ops out outM K, FFAll shape (ls ++ [s]) b m0 ops out outM K w w') w1 := by
  set l := b + 1 + ls.length with hl
  set w0 := updL l (fun x => { x with ff := true }) w with hw0
  have hlen : (ls ++ [s]).length = ls.length + 1 := by simp
  have hnl : ∀ k, k ≤ ls.length → b + k ≠ l := fun k hk => by omega
  have hs : LayerAt s w l := S.lay ls.length s (by simp)
  have el1 : w1.layers l = w0.layers l := A.grow.layers l (by omega)
  have el0 : w0.layers l = { w.layers l with ff := true } := by rw [hw0, updL_same]
  have g0 : Grow (· = l) (fun _ => False) [] w w0 := by rw [hw0]; exact grow_updL (L := (· = l)) rfl _ w
  -- the previous layer is the input layer or one of `ls`
  have hpn : ((w1.layers (b + ls.length)).pre = none ∨ ∃ s' : LSpec T, (w1.layers (b + ls.length)).kind = s'.kind) := by
    obtain ⟨a1, a2, _⟩ := A.same (b + ls.length)
    rw [a1, a2, hw0, updL_ne _ _ (hnl _ (le_refl _))]
    rcases Nat.eq_zero_or_pos ls.length with h | h
    · left; rw [h]; exact S.pre
    · right
      have hk : (ls ++ [s])[ls.length - 1]? = some (ls[ls.length - 1]'(by omega)) := by
        rw [List.getElem?_append_left (by omega)]; simp
      have := (S.lay _ _ hk).kind
      refine ⟨ls[ls.length - 1]'(by omega), ?_⟩
      rw [show b + ls.length = b + 1 + (ls.length - 1) by omega]
      exact this
  refine wp_bind (wp_of_ok (delegated_ok hf hpn) ?_)
  refine wp_bind (wp_modify ?_)
  set w2 := updL l (fun x => { x with input := (w1.layers (b + ls.length)).output }) w1 with hw2
  show wp True _ _ w2
  have g2 : Grow (· = l) (fun _ => False) [] w1 w2 := by rw [hw2]; exact grow_updL (L := (· = l)) rfl _ w1
  have el2 : w2.layers l = { w.layers l with ff := true, input := some out } := by
    rw [hw2, updL_same, el1, el0, A.output]
  have ep2 : w2.layers (b + ls.length) = w1.layers (b + ls.length) := updL_ne _ _ (hnl _ (le_refl _))
  have h12 : w2.store = w1.store := rfl
  have h00 : w0.store = w.store := rfl
  -- the layer's own scalars
  have gA : Grow (fun k => b ≤ k ∧ k ≤ l) (fun q => ∃ k ≤ ls.length, q = (w.layers (b + k)).ref) ops w w2 := by
    have x1 := g0.weaken (L' := fun k => b ≤ k ∧ k ≤ l) (C' := fun q => ∃ k ≤ ls.length, q = (w.layers (b + k)).ref)
      (fun k hk => by omega) (fun _ h => h.elim)
    have x2 := A.grow.weaken (L' := fun k => b ≤ k ∧ k ≤ l) (C' := fun q => ∃ k ≤ ls.length, q = (w.layers (b + k)).ref)
      (fun k hk => by omega) (fun q ⟨k, hk, hq⟩ => ⟨k, hk, by rw [hq, hw0, updL_ne _ _ (hnl _ hk)]⟩)
    have x3 := g2.weaken (L' := fun k => b ≤ k ∧ k ≤ l) (C' := fun q => ∃ k ≤ ls.length, q = (w.layers (b + k)).ref)
      (fun k hk => by omega) (fun _ h => h.elim)
    simpa using x1.trans (x2.trans x3)
  have own20 : ∀ q, ownCell w2 l q ↔ ownCell w l q := fun q => by
    refine ownCell_congr (by rw [el2]) (by rw [el2]) (fun o hk ho => ?_) q
    obtain ⟨m, hm⟩ := hs.own.mat hs.kind hk ho
    rw [(hm.grow gA).mat, hm.mat]
  have ownlt : ∀ k, k ≤ ls.length → ∀ q, ownCell w (b + 1 + k) q → q < w.store.heap.next := fun k hk q hq => by
    have : (ls ++ [s])[k]? = some ((ls ++ [s])[k]'(by simp; omega)) := by simp
    exact (S.lay k _ this).own_lt hq
  have own0 : ∀ k, k < ls.length → ∀ q, ownCell w0 (b + 1 + k) q ↔ ownCell w (b + 1 + k) q := fun k hk q => by
    have e : w0.layers (b + 1 + k) = w.layers (b + 1 + k) := updL_ne _ w (by omega)
    exact ownCell_congr (w := w) (congrArg Layer.kind e) (congrArg Layer.output e) (fun _ _ _ => rfl) q
  have hrp : ∀ k ≤ ls.length, ∃ j ≤ ls.length, (w1.layers (b + k)).ref = (w.layers (b + j)).ref := fun k hk => by
    obtain ⟨j, hj, e⟩ := A.refp k hk
    exact ⟨j, hj, by rw [e, hw0, updL_ne _ _ (hnl j hj)]⟩
  have hin : ∀ q, ownCell w l q → q ∉ outM.ops := by
    intro q hq hm
    obtain ⟨d1, d2⟩ := S.dis ls.length (by simp) q hq
    rcases A.stage.out q hm with h | h | ⟨k, hk, h⟩
    · exact d1 h
    · have := hs.own_lt hq; rw [h00] at h; omega
    · exact d2 k hk ((own0 k hk q).1 h)
  have P : FFPre s w2 f l (b + ls.length) out outM := by
    refine ⟨lt_of_lt_of_le S.pos gA.next, by rw [el2]; exact hs.kind, by rw [el2]; exact hs.act, by rw [el2],
      A.ready.grow g2, hnl _ (le_refl _), ⟨b + ls.length, hnl _ (le_refl _), ⟨by rw [ep2]; exact hpn, Or.inl rfl⟩, by rw [ep2]; exact A.output, fun h => absurd rfl h⟩, hf,
      by
        have := (S.ref (ls.length + 1) (by simp)).1
        rw [show b + (ls.length + 1) = l by omega] at this
        rw [el2]; exact this, by
        obtain ⟨j, hj, e⟩ := hrp ls.length (le_refl _)
        rw [ep2, e]; exact (S.ref j (by rw [hlen]; omega)).1,
      ⟨by
        obtain ⟨j, hj, e⟩ := hrp ls.length (le_refl _)
        rw [ep2, e]; exact lt_of_lt_of_le (S.ref j (by rw [hlen]; omega)).2.1 gA.next, by
        have := (S.ref (ls.length + 1) (by simp)).2.1
        rw [show b + (ls.length + 1) = l by omega] at this
        rw [el2]; exact lt_of_lt_of_le this gA.next⟩, ?_, fun q hq => hin q ((own20 q).1 hq), by rw [A.oshape]; exact hfit, by rw [el2]; exact hs.wn⟩
    cases s with
    | dense n a =>
      obtain ⟨o', m, h1, h2, h3⟩ := hs.own
      exact ⟨o', m, by rw [el2]; exact h1, h2.grow gA, h3⟩
    | _ => trivial
  refine wp_mono (wp_eq (hg w2 f l (b + ls.length) out outM P)) ?_
  rintro _ w' ⟨⟨ops2, out2, outM2, K2, D, E⟩, he⟩
  have elw : ∀ k, k ≠ l → w'.layers k = w1.layers k := fun k hk => by
    rw [D.grow.layers k hk, hw2, updL_ne _ _ hk]
  obtain ⟨jp, hjp, ejp⟩ := hrp ls.length (le_refl _)
  have ejp2 : (w2.layers (b + ls.length)).ref = (w.layers (b + jp)).ref := by rw [ep2, ejp]
  have hown2 : ownCell w2 l = ownCell w l := funext fun q => propext (own20 q)
  have hpar : ∀ k, k < ls.length → layerParams w' (b + 1 + k) = layerParams w1 (b + 1 + k) := fun k hk => by
    have e1 : layerParams w2 (b + 1 + k) = layerParams w1 (b + 1 + k) := by
      unfold layerParams; rw [hw2, updL_ne _ _ (by omega)]; rfl
    rw [← e1]
    refine layerParams_grow D.grow (by omega) fun n hn => ?_
    have e2 : w2.layers (b + 1 + k) = w1.layers (b + 1 + k) := updL_ne _ _ (by omega)
    rw [e2] at hn
    obtain ⟨m, h1, h2⟩ := A.pready k hk n hn
    exact ⟨m, h1.grow g2, h2⟩
  have hidx : ∀ k, k ≤ (ls ++ [s]).length → k ≤ ls.length ∨ (k = ls.length + 1 ∧ b + k = l) := fun k hk => by
    rw [hlen] at hk; omega
  have hidx' : ∀ k s', (ls ++ [s])[k]? = some s' → (k < ls.length ∧ ls[k]? = some s') ∨ (k = ls.length ∧ s' = s) := by
    intro k s' h
    have hk := (List.getElem?_eq_some_iff.1 h).1
    rw [hlen] at hk
    rcases Nat.lt_or_ge k ls.length with h1 | h1
    · left; rw [List.getElem?_append_left h1] at h; exact ⟨h1, h⟩
    · right
      have : k = ls.length := by omega
      subst this
      simp at h
      exact ⟨rfl, h.symm⟩
  refine ⟨ops ++ ops2, out2, outM2, fun q c => K q c ∨ K2 q c, ?_, ?_, ?_, ?_, ?_, ?_, D.ready, ?_, ?_, ?_, ?_, ?_, ?_, ?_, ?_, ?_⟩
  · have x1 := gA.weaken (L' := fun k => b ≤ k ∧ k ≤ b + (ls ++ [s]).length)
      (C' := fun q => ∃ k ≤ (ls ++ [s]).length, q = (w.layers (b + k)).ref)
      (fun k hk => by rw [hlen]; omega) (fun q ⟨k, hk, hq⟩ => ⟨k, by rw [hlen]; omega, hq⟩)
    have x2 := D.grow.weaken (L' := fun k => b ≤ k ∧ k ≤ b + (ls ++ [s]).length)
      (C' := fun q => ∃ k ≤ (ls ++ [s]).length, q = (w.layers (b + k)).ref)
      (fun k hk => by rw [hlen]; omega) (fun q hq => ⟨jp, by rw [hlen]; omega, by rw [hq, ejp2]⟩)
    exact x1.trans x2
  · intro k
    by_cases hk : k = l
    · rw [hk, D.kind, D.pre, D.act, D.flags.1, D.flags.2.1, D.flags.2.2.1, D.flags.2.2.2.1, D.flags.2.2.2.2, el2]; simp
    · rw [elw k hk]
      have := A.same k
      rw [hw0, updL_ne _ _ hk] at this
      exact this
  · intro k hk
    rcases hidx k hk with h | ⟨_, h⟩
    · rw [elw _ (hnl k h)]; exact A.ffs k h
    · rw [h, D.ff, el2]
  · intro k hk
    rcases hidx k hk with h | ⟨h1, h⟩
    · rw [elw _ (hnl k h)]
      obtain ⟨j, hj, e⟩ := hrp k h
      exact ⟨j, by rw [hlen]; omega, e⟩
    · rcases D.ref with e | e
      · exact ⟨k, hk, by rw [h, e, el2]⟩
      · exact ⟨jp, by rw [hlen]; omega, by rw [h, e, ejp2]⟩
  · rw [elw b (by omega), A.input, hw0, updL_ne _ _ (by omega)]
  · rw [hlen, show b + (ls.length + 1) = l by omega]; exact D.output
  · rw [D.shape, A.oshape, outShapes_append]
  · have S2 := D.stage
    rw [h12, hown2] at S2
    have C := A.stage.comp S2 A.grow.next (by rw [← h12]; exact D.grow.next)
      (fun q ⟨k, hk, hq⟩ => ownlt k (le_of_lt hk) q ((own0 k hk q).1 hq)) (fun q hq => ownlt ls.length (le_refl _) q hq)
    have eps : ((List.range ls.length).map fun k => layerParams w1 (b + 1 + k)) ++ [layerParams w' l] =
        (List.range (ls ++ [s]).length).map fun k => layerParams w' (b + 1 + k) := by
      rw [hlen, List.range_succ, List.map_append]
      congr 1
      refine List.map_congr_left fun k hk => ?_
      rw [hpar k (List.mem_range.1 hk)]
    rw [eps] at C
    refine C.mono (le_refl _) ?_ ?_ ?_
    · rintro q (⟨k, hk, hq⟩ | hq)
      · exact ⟨k, by rw [hlen]; omega, (own0 k hk q).1 hq⟩
      · exact ⟨ls.length, by rw [hlen]; omega, hq⟩
    · intro pv x hpv
      simp only [List.length_map, List.length_range, hlen] at hpv
      simp only [List.length_map, List.length_range]
      have e1 : pv.take ls.length ++ [(pv.drop ls.length).headD []] = pv := by
        have : pv.drop ls.length = [(pv.drop ls.length).headD []] := by
          have hl1 : (pv.drop ls.length).length = 1 := by simp [hpv]
          match pv.drop ls.length, hl1 with
          | [a], _ => rfl
        rw [← this, List.take_append_drop]
      conv_rhs => rw [← e1]
      rw [netFn_append (by simp [hpv])]
    · rw [safe_append, A.oshape]; exact fun h => h
  · intro q c hk
    rcases hk with hk | hk
    · obtain ⟨k1, k2, _⟩ := A.stage.keep q c hk
      rw [D.grow.val q k2 fun e => ?_]
      · exact A.kept q c hk
      · have := (S.ref jp (by rw [hlen]; omega)).2.1
        rw [← ejp2, ← e] at this
        rw [h00] at k1
        omega
    · exact D.kept q c hk
  · intro k s' h
    rcases hidx' k s' h with ⟨h1, h2⟩ | ⟨h1, h2⟩
    · rw [hpar k h1, A.pshape k s' h2, List.take_append_of_le_length (by omega)]
    · rw [h1, h2, D.pshape, A.oshape]; simp
  · intro k hk n hn
    rw [hlen] at hk
    rcases Nat.lt_or_ge k ls.length with h1 | h1
    · rw [elw _ (by omega)] at hn
      obtain ⟨m, x1, x2⟩ := A.pready k h1 n hn
      exact ⟨m, (x1.grow g2).grow D.grow, x2⟩
    · have : b + 1 + k = l := by omega
      rw [this] at hn
      exact D.pready n hn
  · intro k hk
    rcases hidx k hk with h | ⟨_, h⟩
    · rw [elw _ (hnl k h)]; exact A.both k h
    · rw [h]; exact D.both
  · rw [elw b (by omega)]; exact A.wn
  · rw [hlen, List.range_succ, List.map_append, List.flatten_append, List.flatMap_append]
    have e1 : ((List.range ls.length).map fun k => layerParams w' (b + 1 + k)) =
        (List.range ls.length).map fun k => layerParams w1 (b + 1 + k) :=
      List.map_congr_left fun k hk => hpar k (List.mem_range.1 hk)
    rw [e1]
    refine List.nodup_append.2 ⟨A.pdist, by simpa using D.pdist, ?_⟩
    rintro x hx y hy rfl
    obtain ⟨m1, hm1, hx1⟩ := List.mem_flatMap.1 hx
    obtain ⟨p1, hp1, hmp1⟩ := List.mem_flatten.1 hm1
    obtain ⟨m2, hm2, hx2⟩ := List.mem_flatMap.1 hy
    have h1 := A.stage.par p1 hp1 m1 hmp1 x hx1
    have h2 := D.stage.par (layerParams w' l) (by simp) m2 (by simpa using hm2) x hx2
    rw [h12] at h2
    omega
  · exact .snoc A.trace hw2 he P ⟨by rw [ep2]; exact hpn, Or.inl rfl⟩ D E

/-- building the feed-forward part of a chain of layers -/
theorem ff_chain {shape : List Nat} {ls : List (LSpec T)} {b inp0 f : Nat} {m0 : Mat} {w : World T}
    (S : SeqAt shape ls b inp0 m0 w) (hf : ls.length < f) (hg : ∀ s ∈ ls, FFGood s) (hfit : Fits ls shape) :
    wp True (LayerM.feedForward f (b + ls.length)) (fun _ w' => ∃ ops out outM K,
      FFAll shape ls b m0 ops out outM K w w') w := by
  induction ls using List.reverseRecOn generalizing f w with
  | nil =>
    obtain ⟨f, rfl⟩ : ∃ g, f = g + 1 := ⟨f - 1, by simp at hf; omega⟩
    exact ff_input S f
  | append_singleton ls s ih =>
    simp only [List.length_append, List.length_singleton] at hf
    obtain ⟨f, rfl⟩ : ∃ g, f = g + 1 := ⟨f - 1, by omega⟩
    have hs : LayerAt s w (b + 1 + ls.length) := S.lay ls.length s (by simp)
    obtain ⟨r1, r2, r3⟩ := S.ref (ls.length + 1) (by simp)
    rw [show b + (ls.length + 1) = b + 1 + ls.length by omega] at r1 r2 r3
    have hpre : (w.layers (b + 1 + ls.length)).pre = some (b + ls.length) := by
      rw [hs.pre]; congr 1; omega
    have e := ff_unfold (f := f) hs.ff hs.kind hpre r1 r3
    obtain ⟨f1, f2⟩ := fits_append.1 hfit
    have hid : b + (ls ++ [s]).length = b + 1 + ls.length := by simp; omega
    rw [hid]
    suffices h : wp True (do
        LayerM.feedForward f (b + ls.length)
        let o ← LayerM.getOutputs f (b + ls.length)
        Run.modify (b + 1 + ls.length) fun x => { x with input := o }
        LayerM.ffBody f (b + 1 + ls.length) s.kind (some (b + ls.length)) : Run T Unit)
        (fun _ w' => ∃ ops out outM K, FFAll shape (ls ++ [s]) b m0 ops out outM K w w')
        (updL (b + 1 + ls.length) (fun x => { x with ff := true }) w) by
      unfold wp at h ⊢; rw [e]; exact h
    refine wp_bind (wp_mono (ih (S.init _) (by omega) (fun s hs => hg s (by simp [hs])) f1) ?_)
    rintro _ w1 ⟨ops, out, outM, K, A⟩
    exact ff_step S (by omega) (hg s (by simp)) f2 A

end Godeep
