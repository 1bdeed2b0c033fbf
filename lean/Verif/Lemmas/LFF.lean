import Verif.Lemmas.JStep
/-
  Feed-forward of a chain of layers with connected input layers in it: the input layers of models that have been pushed as layers.
-/
set_option linter.unusedSectionVars false

namespace Godeep
open Spec GoNum

variable {T : Type} [GoNum T]

/-- layer `l` is an input layer that has been pushed after layer `l - 1` -/
structure LinkAt (w : World T) (l : Nat) : Prop where
  kind : (w.layers l).kind = .input
  pre : (w.layers l).pre = some (l - 1)
  ff : (w.layers l).ff = false
  wn : (w.layers l).weights = none ∧ (w.layers l).bias = none

/-- layer `l` is a connected input layer (`k`), or made by the constructor of `s` -/
def ItemAt (k : Bool) (s : LSpec T) (w : World T) (l : Nat) : Prop := if k then LinkAt w l else LayerAt s w l

theorem ItemAt.link {s : LSpec T} {w : World T} {l : Nat} {k : Bool} (h : ItemAt k s w l) (hk : k = true) : LinkAt w l := by
  subst hk; exact h

theorem ItemAt.layer {s : LSpec T} {w : World T} {l : Nat} {k : Bool} (h : ItemAt k s w l) (hk : k = false) : LayerAt s w l := by
  subst hk; exact h

theorem ItemAt.pre {s : LSpec T} {w : World T} {l : Nat} {k : Bool} (h : ItemAt k s w l) : (w.layers l).pre = some (l - 1) := by
  cases k
  · exact (h.layer rfl).pre
  · exact (h.link rfl).pre

theorem ItemAt.ff {s : LSpec T} {w : World T} {l : Nat} {k : Bool} (h : ItemAt k s w l) : (w.layers l).ff = false := by
  cases k
  · exact (h.layer rfl).ff
  · exact (h.link rfl).ff

theorem ItemAt.wn {s : LSpec T} {w : World T} {l : Nat} {k : Bool} (h : ItemAt k s w l) : (w.layers l).weights = none ∧ (w.layers l).bias = none := by
  cases k
  · exact (h.layer rfl).wn
  · exact (h.link rfl).wn

theorem link_own {w : World T} {l : Nat} (h : (w.layers l).kind = .input) (q : Ptr) : ¬ ownCell w l q := by
  unfold ownCell
  rw [h]
  simp

theorem ItemAt.own_lt {s : LSpec T} {w : World T} {l : Nat} {k : Bool} (h : ItemAt k s w l) {q : Ptr} (hq : ownCell w l q) : q < w.store.heap.next := by
  cases k
  · exact (h.layer rfl).own_lt hq
  · exact absurd hq (link_own (h.link rfl).kind q)

theorem ItemAt.updL {s : LSpec T} {w : World T} {l n : Nat} {k : Bool} {f : Layer T → Layer T} (h : ItemAt k s w l) (hl : l ≠ n) :
    ItemAt k s (updL n f w) l := by
  cases k
  · exact (h.layer rfl).updL hl
  · have h := h.link rfl
    have e : (Godeep.updL n f w).layers l = w.layers l := updL_ne f w hl
    exact ⟨by rw [e]; exact h.kind, by rw [e]; exact h.pre, by rw [e]; exact h.ff, by rw [e]; exact h.wn⟩

theorem ItemAt.ext {s : LSpec T} {w w' : World T} {l : Nat} {k : Bool} (h : ItemAt k s w l) (g : Ext w w') {bb : Bool} {r : Ptr} {i : Nat}
    (e : w'.layers l = { w.layers l with build := bb, ref := r, index := i }) : ItemAt k s w' l := by
  cases k
  · exact (h.layer rfl).ext g e
  · have h := h.link rfl
    exact ⟨by rw [e]; exact h.kind, by rw [e]; exact h.pre, by rw [e]; exact h.ff, by rw [e]; exact h.wn⟩

theorem ItemAt.own_ext {s : LSpec T} {w w' : World T} {l : Nat} {k : Bool} (h : ItemAt k s w l) (g : Ext w w') {bb : Bool} {r : Ptr} {i : Nat}
    (e : w'.layers l = { w.layers l with build := bb, ref := r, index := i }) (q : Ptr) : ownCell w' l q ↔ ownCell w l q := by
  cases k
  · exact (h.layer rfl).own_ext g e q
  · have h := h.link rfl
    exact ⟨fun hq => absurd hq (link_own (by rw [e]; exact h.kind) q), fun hq => absurd hq (link_own h.kind q)⟩

/-- the layers `b`, `b + 1`, ... are a chain starting with an input layer; those with `lk` are connected input layers, and `ls` has a layer that does
nothing in their place -/
structure LBase (shape : List Nat) (ls : List (LSpec T)) (lk : Nat → Bool) (b inp0 : Nat) (m0 : Mat) (w : World T) : Prop where
  pos : 0 < w.store.heap.next
  kind : (w.layers b).kind = .input
  pre : (w.layers b).pre = none
  ff : (w.layers b).ff = false
  input : (w.layers b).input = some inp0
  rin : Ready w inp0 m0
  shape : m0.shape = shape
  nodup : m0.ops.Nodup
  wn : (w.layers b).weights = none ∧ (w.layers b).bias = none
  lay : ∀ k s, ls[k]? = some s → ItemAt (lk k) s w (b + 1 + k)
  dis : ∀ k, k < ls.length → ∀ q, ownCell w (b + 1 + k) q → q ∉ m0.ops ∧
    ∀ k', k' < k → ¬ ownCell w (b + 1 + k') q

/-- ... and is ready for feed-forward -/
structure LAt (shape : List Nat) (ls : List (LSpec T)) (lk : Nat → Bool) (b inp0 : Nat) (m0 : Mat) (w : World T) : Prop
    extends LBase shape ls lk b inp0 m0 w where
  ref : ∀ k, k ≤ ls.length → 0 < (w.layers (b + k)).ref ∧ (w.layers (b + k)).ref < w.store.heap.next ∧
    eq (w.store.heap.val (w.layers (b + k)).ref) zero = false

/-- what building the feed-forward part of such a chain has done -/
structure LAll (shape : List Nat) (ls : List (LSpec T)) (b : Nat) (m0 : Mat) (ops : List (Op T)) (out : Nat)
    (outM : Mat) (K : Ptr → T → Prop) (w w' : World T) : Prop where
  grow : Grow (fun l => b ≤ l ∧ l ≤ b + ls.length) (fun q => ∃ k ≤ ls.length, q = (w.layers (b + k)).ref) ops w w'
  same : ∀ l, (w'.layers l).kind = (w.layers l).kind ∧ (w'.layers l).pre = (w.layers l).pre ∧
    (w'.layers l).act = (w.layers l).act ∧ (w'.layers l).trainable = (w.layers l).trainable ∧
    (w'.layers l).bp = (w.layers l).bp ∧ (w'.layers l).saved = (w.layers l).saved ∧
    (w'.layers l).loaded = (w.layers l).loaded ∧ (w'.layers l).build = (w.layers l).build
  ffs : ∀ k ≤ ls.length, (w'.layers (b + k)).ff = true
  refp : ∀ k ≤ ls.length, ∃ j ≤ ls.length, (w'.layers (b + k)).ref = (w.layers (b + j)).ref
  input : (w'.layers b).input = (w.layers b).input
  src : ∃ rl, Source w' (b + ls.length) rl ∧ b ≤ rl ∧ rl ≤ b + ls.length ∧ (w'.layers rl).output = some out ∧
    (b + ls.length ≠ rl → ∃ n ≤ ls.length, Via w' n (b + ls.length) rl)
  ready : Ready w' out outM
  oshape : outM.shape = outShapes ls shape
  stage : Stage w.store.heap.next w'.store.heap.next (fun q => ∃ k < ls.length, ownCell w (b + 1 + k) q) ops m0 outM
    ((List.range ls.length).map fun k => layerParams w' (b + 1 + k)) K (netFn ls) (Safe ls shape)
  kept : ∀ q c, K q c → w'.store.heap.val q = c
  pshape : ∀ k s, ls[k]? = some s → (layerParams w' (b + 1 + k)).map Mat.shape =
    s.paramShapes (outShapes (ls.take k) shape)
  pready : ∀ k < ls.length, ∀ n, ((w'.layers (b + 1 + k)).weights = some n ∨ (w'.layers (b + 1 + k)).bias = some n) →
    ∃ m, Ready w' n m ∧ m.ops.Nodup
  both : ∀ k ≤ ls.length, ((w'.layers (b + k)).weights = none ↔ (w'.layers (b + k)).bias = none)
  wn : (w'.layers b).weights = none ∧ (w'.layers b).bias = none
  pdist : (((List.range ls.length).map fun k => layerParams w' (b + 1 + k)).flatten.flatMap Mat.ops).Nodup

theorem LAt.init {shape : List Nat} {ls : List (LSpec T)} {lk : Nat → Bool} {s : LSpec T} {b inp0 : Nat} {m0 : Mat} {w : World T}
    (S : LAt shape (ls ++ [s]) lk b inp0 m0 w) (f : Layer T → Layer T) :
    LAt shape ls lk b inp0 m0 (updL (b + 1 + ls.length) f w) := by
  have hlt : ∀ k, k ≤ ls.length → b + k ≠ b + 1 + ls.length := fun k hk => by omega
  have e0 : (updL (b + 1 + ls.length) f w).layers b = w.layers b := updL_ne f w (by omega)
  have hlay : ∀ k s', ls[k]? = some s' → ItemAt (lk k) s' w (b + 1 + k) := fun k s' h => S.lay k s' (by
    rw [List.getElem?_append_left (List.getElem?_eq_some_iff.1 h).1]; exact h)
  have hown : ∀ k, k < ls.length → ∀ q, ownCell (updL (b + 1 + ls.length) f w) (b + 1 + k) q ↔ ownCell w (b + 1 + k) q :=
    fun k hk q => by
    have e : (updL (b + 1 + ls.length) f w).layers (b + 1 + k) = w.layers (b + 1 + k) := updL_ne f w (by omega)
    exact ownCell_congr (w := w) (congrArg Layer.kind e) (congrArg Layer.output e) (fun _ _ _ => rfl) q
  refine ⟨⟨S.pos, by rw [e0]; exact S.kind, by rw [e0]; exact S.pre, by rw [e0]; exact S.ff,
    by rw [e0]; exact S.input, S.rin.updL _ _, S.shape, S.nodup, by rw [e0]; exact S.wn, ?_, ?_⟩, ?_⟩
  · intro k s' h
    have := (List.getElem?_eq_some_iff.1 h).1
    exact (hlay k s' h).updL (by omega)
  · intro k hk q hq
    obtain ⟨h1, h2⟩ := S.dis k (by simp; omega) q ((hown k hk q).1 hq)
    refine ⟨h1, fun k' hk' hq' => h2 k' hk' ((hown k' (by omega) q).1 hq')⟩
  · intro k hk
    have e : (updL (b + 1 + ls.length) f w).layers (b + k) = w.layers (b + k) := updL_ne f w (hlt k hk)
    rw [e]
    exact S.ref k (by simp; omega)

theorem l_input {shape : List Nat} {lk : Nat → Bool} {b inp0 : Nat} {m0 : Mat} {w : World T}
    (S : LAt shape [] lk b inp0 m0 w) (f : Nat) :
    wp True (LayerM.feedForward (f + 1) b) (fun _ w' => ∃ ops out outM K, LAll shape [] b m0 ops out outM K w w') w := by
  have S' : SeqAt shape [] b inp0 m0 w :=
    ⟨⟨S.pos, S.kind, S.pre, S.ff, S.input, S.rin, S.shape, S.nodup, S.wn, by simp, by simp⟩, S.ref⟩
  refine wp_mono (ff_input S' f) ?_
  rintro _ w' ⟨ops, out, outM, K, A⟩
  refine ⟨ops, out, outM, K, A.grow, A.same, A.ffs, A.refp, A.input, ⟨b, ⟨Or.inl (by rw [(A.same b).2.1]; exact S.pre), Or.inl rfl⟩, le_refl _, le_refl _, A.output,
    fun h => absurd rfl h⟩, A.ready, A.oshape, A.stage, A.kept, A.pshape, A.pready, A.both, A.wn, A.pdist⟩

/-- the feed-forward part of a connected input layer -/
theorem ff_unfold_link {f l p : Nat} {w : World T} (hff : (w.layers l).ff = false)
    (hk : (w.layers l).kind = .input) (hp : (w.layers l).pre = some p) (hr : 0 < (w.layers l).ref)
    (hv : eq (w.store.heap.val (w.layers l).ref) zero = false) :
    LayerM.feedForward (f + 1) l w = LayerM.feedForward f p (updL l (fun x => { x with ff := true }) w) := by
  have e : LayerM.feedForward (f + 1) l w = ((do
      if (w.layers l).ff then return () else
        let v ← Run.value (w.layers l).ref
        if eq v zero then return () else
          Run.modify l fun x => { x with ff := true }
          match (w.layers l).kind with
          | .input =>
            match (w.layers l).pre with
            | some p => LayerM.feedForward f p
            | none => LayerM.ffBody f l (w.layers l).kind (w.layers l).pre
          | .concat l1 l2 _ => do
            LayerM.feedForward f l1
            LayerM.feedForward f l2
            LayerM.ffBody f l (w.layers l).kind (w.layers l).pre
          | _ => do
            match (w.layers l).pre with
            | some p =>
              LayerM.feedForward f p
              let o ← LayerM.getOutputs f p
              Run.modify l fun x => { x with input := o }
            | none => pure ()
            LayerM.ffBody f l (w.layers l).kind (w.layers l).pre : Run T Unit)) w := rfl
  rw [e, hff, hk, hp]
  show (Run.value (w.layers l).ref w).bind _ = _
  rw [value_ok hr]
  show (if eq (w.store.heap.val (w.layers l).ref) zero then _ else _ : Run T Unit) w = _
  rw [hv]
  rfl

theorem append_idx {ls : List (LSpec T)} {s : LSpec T} {k : Nat} {s' : LSpec T} (h : (ls ++ [s])[k]? = some s') :
    (k < ls.length ∧ ls[k]? = some s') ∨ (k = ls.length ∧ s' = s) := by
  have hk := (List.getElem?_eq_some_iff.1 h).1
  rw [List.length_append, List.length_singleton] at hk
  rcases Nat.lt_or_ge k ls.length with h1 | h1
  · left; rw [List.getElem?_append_left h1] at h; exact ⟨h1, h⟩
  · right
    have : k = ls.length := by omega
    subst this
    simp at h
    exact ⟨rfl, h.symm⟩

theorem lff_link {shape : List Nat} {ls : List (LSpec T)} {lk : Nat → Bool} {s : LSpec T} {b inp0 : Nat} {m0 : Mat} {w w1 : World T}
    (S : LAt shape (ls ++ [s]) lk b inp0 m0 w) (hk : lk ls.length = true) (hs : s = linkSpec (outShapes ls shape))
    {ops : List (Op T)} {out : Nat} {outM : Mat} {K : Ptr → T → Prop}
    (A : LAll shape ls b m0 ops out outM K (updL (b + 1 + ls.length) (fun x => { x with ff := true }) w) w1) :
    LAll shape (ls ++ [s]) b m0 ops out outM K w w1 := by
  obtain ⟨l, hl⟩ : ∃ l, l = b + 1 + ls.length := ⟨_, rfl⟩
  rw [← hl] at A
  obtain ⟨w0, hw0⟩ : ∃ x, x = updL l (fun x => { x with ff := true }) w := ⟨_, rfl⟩
  rw [← hw0] at A
  have hlen : (ls ++ [s]).length = ls.length + 1 := by simp
  have hnl : ∀ k, k ≤ ls.length → b + k ≠ l := fun k hk => by omega
  have hL : LinkAt w l := by
    have := (S.lay ls.length s (by simp)).link hk
    rwa [← hl] at this
  have el1 : w1.layers l = { w.layers l with ff := true } := by
    rw [A.grow.layers l (by omega), hw0, updL_same]
  have hsame0 : ∀ k, k ≠ l → w0.layers k = w.layers k := fun k h => by rw [hw0, updL_ne _ _ h]
  have h00 : w0.store = w.store := by rw [hw0]; rfl
  have own0 : ∀ k, k < ls.length → ∀ q, ownCell w0 (b + 1 + k) q ↔ ownCell w (b + 1 + k) q := fun k hk q => by
    have e : w0.layers (b + 1 + k) = w.layers (b + 1 + k) := hsame0 _ (by omega)
    exact ownCell_congr (w := w) (congrArg Layer.kind e) (congrArg Layer.output e) (fun _ _ _ => by rw [h00]) q
  have g0 : Grow (· = l) (fun _ => False) [] w w0 := by rw [hw0]; exact grow_updL (L := (· = l)) rfl _ w
  have hpl : layerParams w1 l = [] := by
    unfold layerParams
    rw [el1, hL.wn.1]
  have hidx : ∀ k, k ≤ (ls ++ [s]).length → k ≤ ls.length ∨ (k = ls.length + 1 ∧ b + k = l) := fun k hk => by
    rw [hlen] at hk; omega
  have hos : outShapes (ls ++ [s]) shape = outShapes ls shape := by rw [outShapes_append, hs, linkSpec_out]
  refine ⟨?_, ?_, ?_, ?_, ?_, ?_, A.ready, by rw [hos]; exact A.oshape, ?_, A.kept, ?_, ?_, ?_, A.wn, ?_⟩
  · have x1 := g0.weaken (L' := fun k => b ≤ k ∧ k ≤ b + (ls ++ [s]).length)
      (C' := fun q => ∃ k ≤ (ls ++ [s]).length, q = (w.layers (b + k)).ref) (fun k hk => by rw [hlen]; omega) (fun _ h => h.elim)
    have x2 := A.grow.weaken (L' := fun k => b ≤ k ∧ k ≤ b + (ls ++ [s]).length)
      (C' := fun q => ∃ k ≤ (ls ++ [s]).length, q = (w.layers (b + k)).ref)
      (fun k hk => by rw [hlen]; omega) (fun q ⟨k, hk, hq⟩ => ⟨k, by rw [hlen]; omega, by rw [hq, hsame0 _ (hnl k hk)]⟩)
    simpa using x1.trans x2
  · intro k
    by_cases h : k = l
    · rw [h, el1]; simp
    · have := A.same k
      rw [hsame0 k h] at this
      exact this
  · intro k hk
    rcases hidx k hk with h | ⟨_, h⟩
    · exact A.ffs k h
    · rw [h, el1]
  · intro k hk
    rcases hidx k hk with h | ⟨h1, h⟩
    · obtain ⟨j, hj, e⟩ := A.refp k h
      exact ⟨j, by rw [hlen]; omega, by rw [e, hsame0 _ (hnl j hj)]⟩
    · exact ⟨k, hk, by rw [h, el1]⟩
  · rw [A.input, hsame0 _ (by omega)]
  · obtain ⟨rl, s1, s2, s3, s4, s5⟩ := A.src
    have step : (w1.layers l).kind = .input ∧ (w1.layers l).pre = some (b + ls.length) := by
      rw [el1]
      refine ⟨hL.kind, ?_⟩
      have := hL.pre
      rw [hl] at this ⊢
      rw [this]; congr 1; omega
    rw [hlen, show b + (ls.length + 1) = l by omega]
    have via : ∃ n ≤ ls.length + 1, Via w1 n l rl := by
      by_cases h : b + ls.length = rl
      · exact ⟨1, by omega, .one step.1 (by rw [← h]; exact step.2)⟩
      · obtain ⟨n, hn, v⟩ := s5 h
        exact ⟨n + 1, by omega, .more step.1 step.2 v⟩
    obtain ⟨n, hn, v⟩ := via
    exact ⟨rl, ⟨s1.1, Or.inr ⟨n, v⟩⟩, s2, by omega, s4, fun _ => ⟨n, hn, v⟩⟩
  · have C := A.stage.comp (Stage.link w1.store.heap.next outM A.oshape) A.grow.next (le_refl _)
      (fun q ⟨k, hk, hq⟩ => by
        have : (ls ++ [s])[k]? = some ((ls ++ [s])[k]'(by simp; omega)) := by simp
        rw [h00]
        exact (S.lay k _ this).own_lt ((own0 k hk q).1 hq)) (fun q hq => hq.elim)
    have eps : ((List.range ls.length).map fun k => layerParams w1 (b + 1 + k)) ++ [[]] =
        (List.range (ls ++ [s]).length).map fun k => layerParams w1 (b + 1 + k) := by
      rw [hlen, List.range_succ, List.map_append, ← hpl, hl]
      rfl
    rw [eps, List.append_nil, h00] at C
    have C' : Stage w.store.heap.next w1.store.heap.next (fun q => ∃ k < (ls ++ [s]).length, ownCell w (b + 1 + k) q) ops m0 outM
        ((List.range (ls ++ [s]).length).map fun k => layerParams w1 (b + 1 + k)) (fun q v => K q v ∨ False) (netFn (ls ++ [s])) (Safe (ls ++ [s]) shape) := by
      refine C.mono (le_refl _) ?_ ?_ ?_
      · rintro q (⟨k, hk, hq⟩ | hq)
        · exact ⟨k, by rw [hlen]; omega, (own0 k hk q).1 hq⟩
        · exact hq.elim
      · intro pv x hpv
        simp only [List.length_map, List.length_range, hlen] at hpv
        simp only [List.length_map, List.length_range]
        have e1 : ∃ a, pv.drop ls.length = [a] := by
          have hl1 : (pv.drop ls.length).length = 1 := by simp [hpv]
          match pv.drop ls.length, hl1 with
          | [a], _ => exact ⟨a, rfl⟩
        obtain ⟨a, ha⟩ := e1
        have e2 : pv = pv.take ls.length ++ [a] := by rw [← ha, List.take_append_drop]
        rw [ha]
        conv_rhs => rw [e2]
        rw [netFn_append (by simp [hpv]), hs]
        rfl
      · rw [safe_append]
        exact fun h => ⟨h.1, trivial⟩
    have eK : (fun q v => K q v ∨ False) = K := by funext q v; simp
    rw [eK] at C'
    exact C'
  · intro k s' h
    rcases append_idx h with ⟨h1, h2⟩ | ⟨h1, h2⟩
    · rw [A.pshape k s' h2, List.take_append_of_le_length (by omega)]
    · rw [h1, ← hl, hpl, h2, hs]; rfl
  · intro k hk n hn
    rw [hlen] at hk
    rcases Nat.lt_or_ge k ls.length with h1 | h1
    · exact A.pready k h1 n hn
    · have : b + 1 + k = l := by omega
      rw [this, el1, hL.wn.1, hL.wn.2] at hn
      simp at hn
  · intro k hk
    rcases hidx k hk with h | ⟨_, h⟩
    · exact A.both k h
    · rw [h, el1]; simp [hL.wn]
  · rw [hlen, List.range_succ, List.map_append, List.flatten_append, List.flatMap_append]
    simp only [List.map_cons, List.map_nil, ← hl, hpl, List.flatten_cons, List.flatten_nil, List.append_nil, List.flatMap_nil]
    exact A.pdist

theorem lff_step {shape : List Nat} {ls : List (LSpec T)} {lk : Nat → Bool} {s : LSpec T} {b inp0 f : Nat} {m0 : Mat} {w w1 : World T}
    (S : LAt shape (ls ++ [s]) lk b inp0 m0 w) (hk : lk ls.length = false) (hf : ls.length < f) (hg : FFGood s)
    (hfit : s.fits (outShapes ls shape)) {ops : List (Op T)} {out : Nat} {outM : Mat} {K : Ptr → T → Prop}
    (A : LAll shape ls b m0 ops out outM K (updL (b + 1 + ls.length) (fun x => { x with ff := true }) w) w1) :
    wp True (do
      let o ← LayerM.getOutputs f (b + ls.length)
      Run.modify (b + 1 + ls.length) fun x => { x with input := o }
      LayerM.ffBody f (b + 1 + ls.length) s.kind (some (b + ls.length)) : Run T Unit)
      (fun _ w' => ∃ ops out outM K, LAll shape (ls ++ [s]) b m0 ops out outM K w w') w1 := by
  set l := b + 1 + ls.length with hl
  set w0 := updL l (fun x => { x with ff := true }) w with hw0
  have hlen : (ls ++ [s]).length = ls.length + 1 := by simp
  have hnl : ∀ k, k ≤ ls.length → b + k ≠ l := fun k hk => by omega
  have hs : LayerAt s w l := (S.lay ls.length s (by simp)).layer hk
  have el1 : w1.layers l = w0.layers l := A.grow.layers l (by omega)
  have el0 : w0.layers l = { w.layers l with ff := true } := by rw [hw0, updL_same]
  have g0 : Grow (· = l) (fun _ => False) [] w w0 := by rw [hw0]; exact grow_updL (L := (· = l)) rfl _ w
  obtain ⟨rl, hsrc, hrb, hrl, hout, hvia'⟩ := A.src
  have hvia : b + ls.length ≠ rl → ∃ n < f, Via w1 n (b + ls.length) rl := fun h => (hvia' h).imp fun n hn => ⟨by omega, hn.2⟩
  have hrne : rl ≠ l := by omega
  refine wp_bind (wp_of_ok (delegated_src (field := Layer.output) (by omega) hsrc hvia) ?_)
  refine wp_bind (wp_modify ?_)
  set w2 := updL l (fun x => { x with input := (w1.layers rl).output }) w1 with hw2
  show wp True _ _ w2
  have g2 : Grow (· = l) (fun _ => False) [] w1 w2 := by rw [hw2]; exact grow_updL (L := (· = l)) rfl _ w1
  have el2 : w2.layers l = { w.layers l with ff := true, input := some out } := by
    rw [hw2, updL_same, el1, el0, hout]
  have ep2 : w2.layers (b + ls.length) = w1.layers (b + ls.length) := updL_ne _ _ (hnl _ (le_refl _))
  have er2 : w2.layers rl = w1.layers rl := updL_ne _ _ hrne
  have hik : ∀ k, (w1.layers k).kind = .input → w2.layers k = w1.layers k := fun k hk => by
    refine updL_ne _ _ fun e => ?_
    rw [e, el1, el0] at hk
    have := hs.kind.symm.trans hk
    cases s <;> cases this
  have h12 : w2.store = w1.store := rfl
  have h00 : w0.store = w.store := rfl
  -- the layer's own scalars
  have gA : Grow (fun k => b ≤ k ∧ k ≤ l) (fun q => ∃ k ≤ ls.length, q = (w.layers (b + k)).ref) ops w w2 := by
    have x1 := g0.weaken (L' := fun k => b ≤ k ∧ k ≤ l) (C' := fun q => ∃ k ≤ ls.length, q = (w.layers (b + k)).ref)
      (fun k hk => by omega) (fun _ h => h.elim)
    have x2 := A.grow.weaken (L' := fun k => b ≤ k ∧ k ≤ l) (C' := fun q => ∃ k ≤ ls.length, q = (w.layers (b + k)).ref)
      (fun k hk => by omega) (fun q ⟨k, hk, hq⟩ => ⟨k, hk, by rw [hq, hw0, updL_ne _ _ (hnl _ hk)]⟩)
    have x3 := g2.weaken (L' := fun k => b ≤ k ∧ k ≤ l) (C' := fun q => ∃ k ≤ ls.length, q = (w.layers (b + k)).ref)
      (fun k hk => by omega) (fun _ h => h.elim)
    simpa using x1.trans (x2.trans x3)
  have own20 : ∀ q, ownCell w2 l q ↔ ownCell w l q := fun q => by
    refine ownCell_congr (by rw [el2]) (by rw [el2]) (fun o hk ho => ?_) q
    obtain ⟨m, hm⟩ := hs.own.mat hs.kind hk ho
    rw [(hm.grow gA).mat, hm.mat]
  have ownlt : ∀ k, k ≤ ls.length → ∀ q, ownCell w (b + 1 + k) q → q < w.store.heap.next := fun k hk q hq => by
    have : (ls ++ [s])[k]? = some ((ls ++ [s])[k]'(by simp; omega)) := by simp
    exact (S.lay k _ this).own_lt hq
  have own0 : ∀ k, k < ls.length → ∀ q, ownCell w0 (b + 1 + k) q ↔ ownCell w (b + 1 + k) q := fun k hk q => by
    have e : w0.layers (b + 1 + k) = w.layers (b + 1 + k) := updL_ne _ w (by omega)
    exact ownCell_congr (w := w) (congrArg Layer.kind e) (congrArg Layer.output e) (fun _ _ _ => rfl) q
  have hrp : ∀ k ≤ ls.length, ∃ j ≤ ls.length, (w1.layers (b + k)).ref = (w.layers (b + j)).ref := fun k hk => by
    obtain ⟨j, hj, e⟩ := A.refp k hk
    exact ⟨j, hj, by rw [e, hw0, updL_ne _ _ (hnl j hj)]⟩
  have hin : ∀ q, ownCell w l q → q ∉ outM.ops := by
    intro q hq hm
    obtain ⟨d1, d2⟩ := S.dis ls.length (by simp) q hq
    rcases A.stage.out q hm with h | h | ⟨k, hk, h⟩
    · exact d1 h
    · have := hs.own_lt hq; rw [h00] at h; omega
    · exact d2 k hk ((own0 k hk q).1 h)
  have P : FFPre s w2 f l (b + ls.length) out outM := by
    refine ⟨lt_of_lt_of_le S.pos gA.next, by rw [el2]; exact hs.kind, by rw [el2]; exact hs.act, by rw [el2],
      A.ready.grow g2, hnl _ (le_refl _), ⟨rl, hrne, hsrc.congr hik er2, by rw [er2]; exact hout, fun h => (hvia h).imp fun n hn => ⟨hn.1, hn.2.congr hik⟩⟩, by omega,
      by
        have := (S.ref (ls.length + 1) (by simp)).1
        rw [show b + (ls.length + 1) = l by omega] at this
        rw [el2]; exact this, by
        obtain ⟨j, hj, e⟩ := hrp ls.length (le_refl _)
        rw [ep2, e]; exact (S.ref j (by rw [hlen]; omega)).1,
      ⟨by
        obtain ⟨j, hj, e⟩ := hrp ls.length (le_refl _)
        rw [ep2, e]; exact lt_of_lt_of_le (S.ref j (by rw [hlen]; omega)).2.1 gA.next, by
        have := (S.ref (ls.length + 1) (by simp)).2.1
        rw [show b + (ls.length + 1) = l by omega] at this
        rw [el2]; exact lt_of_lt_of_le this gA.next⟩, ?_, fun q hq => hin q ((own20 q).1 hq), by rw [A.oshape]; exact hfit, by rw [el2]; exact hs.wn⟩
    cases s with
    | dense n a =>
      obtain ⟨o', m, h1, h2, h3⟩ := hs.own
      exact ⟨o', m, by rw [el2]; exact h1, h2.grow gA, h3⟩
    | _ => trivial
  refine wp_mono (wp_eq (hg w2 f l (b + ls.length) out outM P)) ?_
  rintro _ w' ⟨⟨ops2, out2, outM2, K2, D, E⟩, -⟩
  have elw : ∀ k, k ≠ l → w'.layers k = w1.layers k := fun k hk => by
    rw [D.grow.layers k hk, hw2, updL_ne _ _ hk]
  obtain ⟨jp, hjp, ejp⟩ := hrp ls.length (le_refl _)
  have ejp2 : (w2.layers (b + ls.length)).ref = (w.layers (b + jp)).ref := by rw [ep2, ejp]
  have hown2 : ownCell w2 l = ownCell w l := funext fun q => propext (own20 q)
  have hpar : ∀ k, k < ls.length → layerParams w' (b + 1 + k) = layerParams w1 (b + 1 + k) := fun k hk => by
    have e1 : layerParams w2 (b + 1 + k) = layerParams w1 (b + 1 + k) := by
      unfold layerParams; rw [hw2, updL_ne _ _ (by omega)]; rfl
    rw [← e1]
    refine layerParams_grow D.grow (by omega) fun n hn => ?_
    have e2 : w2.layers (b + 1 + k) = w1.layers (b + 1 + k) := updL_ne _ _ (by omega)
    rw [e2] at hn
    obtain ⟨m, h1, h2⟩ := A.pready k hk n hn
    exact ⟨m, h1.grow g2, h2⟩
  have hidx : ∀ k, k ≤ (ls ++ [s]).length → k ≤ ls.length ∨ (k = ls.length + 1 ∧ b + k = l) := fun k hk => by
    rw [hlen] at hk; omega
  have hidx' : ∀ k s', (ls ++ [s])[k]? = some s' → (k < ls.length ∧ ls[k]? = some s') ∨ (k = ls.length ∧ s' = s) := by
    intro k s' h
    have hk := (List.getElem?_eq_some_iff.1 h).1
    rw [hlen] at hk
    rcases Nat.lt_or_ge k ls.length with h1 | h1
    · left; rw [List.getElem?_append_left h1] at h; exact ⟨h1, h⟩
    · right
      have : k = ls.length := by omega
      subst this
      simp at h
      exact ⟨rfl, h.symm⟩
  refine ⟨ops ++ ops2, out2, outM2, fun q c => K q c ∨ K2 q c, ?_, ?_, ?_, ?_, ?_, ?_, D.ready, ?_, ?_, ?_, ?_, ?_, ?_, ?_, ?_⟩
  · have x1 := gA.weaken (L' := fun k => b ≤ k ∧ k ≤ b + (ls ++ [s]).length)
      (C' := fun q => ∃ k ≤ (ls ++ [s]).length, q = (w.layers (b + k)).ref)
      (fun k hk => by rw [hlen]; omega) (fun q ⟨k, hk, hq⟩ => ⟨k, by rw [hlen]; omega, hq⟩)
    have x2 := D.grow.weaken (L' := fun k => b ≤ k ∧ k ≤ b + (ls ++ [s]).length)
      (C' := fun q => ∃ k ≤ (ls ++ [s]).length, q = (w.layers (b + k)).ref)
      (fun k hk => by rw [hlen]; omega) (fun q hq => ⟨jp, by rw [hlen]; omega, by rw [hq, ejp2]⟩)
    exact x1.trans x2
  · intro k
    by_cases hk : k = l
    · rw [hk, D.kind, D.pre, D.act, D.flags.1, D.flags.2.1, D.flags.2.2.1, D.flags.2.2.2.1, D.flags.2.2.2.2, el2]; simp
    · rw [elw k hk]
      have := A.same k
      rw [hw0, updL_ne _ _ hk] at this
      exact this
  · intro k hk
    rcases hidx k hk with h | ⟨_, h⟩
    · rw [elw _ (hnl k h)]; exact A.ffs k h
    · rw [h, D.ff, el2]
  · intro k hk
    rcases hidx k hk with h | ⟨h1, h⟩
    · rw [elw _ (hnl k h)]
      obtain ⟨j, hj, e⟩ := hrp k h
      exact ⟨j, by rw [hlen]; omega, e⟩
    · rcases D.ref with e | e
      · exact ⟨k, hk, by rw [h, e, el2]⟩
      · exact ⟨jp, by rw [hlen]; omega, by rw [h, e, ejp2]⟩
  · rw [elw b (by omega), A.input, hw0, updL_ne _ _ (by omega)]
  · refine ⟨l, ⟨Or.inr ⟨s, by rw [D.kind, el2]; exact hs.kind⟩, Or.inl (by rw [hlen]; omega)⟩, by omega, by rw [hlen]; omega, D.output, fun h => absurd (by rw [hlen]; omega) h⟩
  · rw [D.shape, A.oshape, outShapes_append]
  · have S2 := D.stage
    rw [h12, hown2] at S2
    have C := A.stage.comp S2 A.grow.next (by rw [← h12]; exact D.grow.next)
      (fun q ⟨k, hk, hq⟩ => ownlt k (le_of_lt hk) q ((own0 k hk q).1 hq)) (fun q hq => ownlt ls.length (le_refl _) q hq)
    have eps : ((List.range ls.length).map fun k => layerParams w1 (b + 1 + k)) ++ [layerParams w' l] =
        (List.range (ls ++ [s]).length).map fun k => layerParams w' (b + 1 + k) := by
      rw [hlen, List.range_succ, List.map_append]
      congr 1
      refine List.map_congr_left fun k hk => ?_
      rw [hpar k (List.mem_range.1 hk)]
    rw [eps] at C
    refine C.mono (le_refl _) ?_ ?_ ?_
    · rintro q (⟨k, hk, hq⟩ | hq)
      · exact ⟨k, by rw [hlen]; omega, (own0 k hk q).1 hq⟩
      · exact ⟨ls.length, by rw [hlen]; omega, hq⟩
    · intro pv x hpv
      simp only [List.length_map, List.length_range, hlen] at hpv
      simp only [List.length_map, List.length_range]
      have e1 : pv.take ls.length ++ [(pv.drop ls.length).headD []] = pv := by
        have : pv.drop ls.length = [(pv.drop ls.length).headD []] := by
          have hl1 : (pv.drop ls.length).length = 1 := by simp [hpv]
          match pv.drop ls.length, hl1 with
          | [a], _ => rfl
        rw [← this, List.take_append_drop]
      conv_rhs => rw [← e1]
      rw [netFn_append (by simp [hpv])]
    · rw [safe_append, A.oshape]; exact fun h => h
  · intro q c hk
    rcases hk with hk | hk
    · obtain ⟨k1, k2, _⟩ := A.stage.keep q c hk
      rw [D.grow.val q k2 fun e => ?_]
      · exact A.kept q c hk
      · have := (S.ref jp (by rw [hlen]; omega)).2.1
        rw [← ejp2, ← e] at this
        rw [h00] at k1
        omega
    · exact D.kept q c hk
  · intro k s' h
    rcases hidx' k s' h with ⟨h1, h2⟩ | ⟨h1, h2⟩
    · rw [hpar k h1, A.pshape k s' h2, List.take_append_of_le_length (by omega)]
    · rw [h1, h2, D.pshape, A.oshape]; simp
  · intro k hk n hn
    rw [hlen] at hk
    rcases Nat.lt_or_ge k ls.length with h1 | h1
    · rw [elw _ (by omega)] at hn
      obtain ⟨m, x1, x2⟩ := A.pready k h1 n hn
      exact ⟨m, (x1.grow g2).grow D.grow, x2⟩
    · have : b + 1 + k = l := by omega
      rw [this] at hn
      exact D.pready n hn
  · intro k hk
    rcases hidx k hk with h | ⟨_, h⟩
    · rw [elw _ (hnl k h)]; exact A.both k h
    · rw [h]; exact D.both
  · rw [elw b (by omega)]; exact A.wn
  · rw [hlen, List.range_succ, List.map_append, List.flatten_append, List.flatMap_append]
    have e1 : ((List.range ls.length).map fun k => layerParams w' (b + 1 + k)) =
        (List.range ls.length).map fun k => layerParams w1 (b + 1 + k) :=
      List.map_congr_left fun k hk => hpar k (List.mem_range.1 hk)
    rw [e1]
    refine List.nodup_append.2 ⟨A.pdist, by simpa using D.pdist, ?_⟩
    rintro x hx y hy rfl
    obtain ⟨m1, hm1, hx1⟩ := List.mem_flatMap.1 hx
    obtain ⟨p1, hp1, hmp1⟩ := List.mem_flatten.1 hm1
    obtain ⟨m2, hm2, hx2⟩ := List.mem_flatMap.1 hy
    have h1 := A.stage.par p1 hp1 m1 hmp1 x hx1
    have h2 := D.stage.par (layerParams w' l) (by simp) m2 (by simpa using hm2) x hx2
    rw [h12] at h2
    omega

/-- building the feed-forward part of such a chain -/
theorem lff_chain {shape : List Nat} {ls : List (LSpec T)} {lk : Nat → Bool} {b inp0 f : Nat} {m0 : Mat} {w : World T}
    (S : LAt shape ls lk b inp0 m0 w) (hf : ls.length < f) (hg : ∀ s, FFGood (s : LSpec T))
    (hlay : ∀ k s, ls[k]? = some s → if lk k then s = linkSpec (outShapes (ls.take k) shape) else s.fits (outShapes (ls.take k) shape)) :
    wp True (LayerM.feedForward f (b + ls.length)) (fun _ w' => ∃ ops out outM K,
      LAll shape ls b m0 ops out outM K w w') w := by
  induction ls using List.reverseRecOn generalizing f w with
  | nil =>
    obtain ⟨f, rfl⟩ : ∃ g, f = g + 1 := ⟨f - 1, by simp at hf; omega⟩
    exact l_input S f
  | append_singleton ls s ih =>
    simp only [List.length_append, List.length_singleton] at hf
    obtain ⟨f, rfl⟩ : ∃ g, f = g + 1 := ⟨f - 1, by omega⟩
    have hs : ItemAt (lk ls.length) s w (b + 1 + ls.length) := S.lay ls.length s (by simp)
    obtain ⟨r1, r2, r3⟩ := S.ref (ls.length + 1) (by simp)
    rw [show b + (ls.length + 1) = b + 1 + ls.length by omega] at r1 r2 r3
    have hpre : (w.layers (b + 1 + ls.length)).pre = some (b + ls.length) := by
      rw [hs.pre]; congr 1; omega
    have hid : b + (ls ++ [s]).length = b + 1 + ls.length := by simp; omega
    rw [hid]
    have IH := ih (S.init fun x => { x with ff := true }) (f := f) (by omega) fun k s' h => by
      have hk := (List.getElem?_eq_some_iff.1 h).1
      have := hlay k s' (by rw [List.getElem?_append_left hk]; exact h)
      rwa [List.take_append_of_le_length (by omega)] at this
    have hl := hlay ls.length s (by simp)
    rw [List.take_left] at hl
    cases hk : lk ls.length with
    | true =>
      rw [hk] at hl
      have hL := hs.link hk
      have e := ff_unfold_link (f := f) hL.ff hL.kind hpre r1 r3
      unfold wp at IH ⊢
      rw [e]
      cases e1 : LayerM.feedForward f (b + ls.length) (updL (b + 1 + ls.length) (fun x => { x with ff := true }) w) with
      | ok r w' =>
        rw [e1] at IH
        obtain ⟨ops, out, outM, K, A⟩ := IH
        exact ⟨ops, out, outM, K, lff_link S hk hl A⟩
      | err _ _ => rw [e1] at IH; exact IH
      | panic => rw [e1] at IH; exact IH
    | false =>
      rw [hk] at hl
      have hL := hs.layer hk
      have e := ff_unfold (f := f) hL.ff hL.kind hpre r1 r3
      suffices h : wp True (do
          LayerM.feedForward f (b + ls.length)
          let o ← LayerM.getOutputs f (b + ls.length)
          Run.modify (b + 1 + ls.length) fun x => { x with input := o }
          LayerM.ffBody f (b + 1 + ls.length) s.kind (some (b + ls.length)) : Run T Unit)
          (fun _ w' => ∃ ops out outM K, LAll shape (ls ++ [s]) b m0 ops out outM K w w')
          (updL (b + 1 + ls.length) (fun x => { x with ff := true }) w) by
        unfold wp at h ⊢; rw [e]; exact h
      refine wp_bind (wp_mono IH ?_)
      rintro _ w1 ⟨ops, out, outM, K, A⟩
      exact lff_step S hk (by omega) (hg s) hl A

end Godeep
