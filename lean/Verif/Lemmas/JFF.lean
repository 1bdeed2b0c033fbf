import Verif.Lemmas.Compile
/-
  Feed-forward of a chain of layers whose input layer is connected to a layer of another model.
-/
set_option linter.unusedSectionVars false

namespace Godeep
open Spec GoNum

variable {T : Type} [GoNum T]

/-- layer `r` has a plain tensor for its error -/
def LeafDif (w : World T) (r : Nat) : Prop :=
  ∃ d dM, (w.layers r).dif = some d ∧ Ready w d dM ∧ (w.store.nodes d).kind = .leaf

theorem LeafDif.grow {L : Nat → Prop} {C : Ptr → Prop} {new : List (Op T)} {w w' : World T} {r : Nat} (h : LeafDif w r)
    (g : Grow L C new w w') (hl : ¬ L r) : LeafDif w' r := by
  obtain ⟨d, dM, h1, h2, h3⟩ := h
  exact ⟨d, dM, by rw [g.layers r hl]; exact h1, h2.grow g, by rw [g.kind d h2.lt]; exact h3⟩

/-- the layers `b`, `b + 1`, ... are a chain; its input layer is connected to layer `r` of another model -/
structure JBase (shape : List Nat) (ls : List (LSpec T)) (b r inp0 : Nat) (m0 : Mat) (w : World T) : Prop where
  pos : 0 < w.store.heap.next
  kind : (w.layers b).kind = .input
  pre : (w.layers b).pre = some r
  rlt : r < b
  rk : (w.layers r).pre = none ∨ ∃ s : LSpec T, (w.layers r).kind = s.kind
  rff : (w.layers r).ff = true
  rout : (w.layers r).output = some inp0
  rdif : LeafDif w r
  ff : (w.layers b).ff = false
  rin : Ready w inp0 m0
  shape : m0.shape = shape
  wn : (w.layers b).weights = none ∧ (w.layers b).bias = none
  lay : ∀ k s, ls[k]? = some s → LayerAt s w (b + 1 + k)
  dis : ∀ k, k < ls.length → ∀ q, ownCell w (b + 1 + k) q → q ∉ m0.ops ∧
    ∀ k', k' < k → ¬ ownCell w (b + 1 + k') q

/-- ... and is ready for feed-forward -/
structure JAt (shape : List Nat) (ls : List (LSpec T)) (b r inp0 : Nat) (m0 : Mat) (w : World T) : Prop
    extends JBase shape ls b r inp0 m0 w where
  ref : ∀ k, k ≤ ls.length → 0 < (w.layers (b + k)).ref ∧ (w.layers (b + k)).ref < w.store.heap.next ∧
    (0 < k → eq (w.store.heap.val (w.layers (b + k)).ref) zero = false)

/-- what building the feed-forward part of a chain that starts with a connected input layer has done -/
structure JAll (shape : List Nat) (ls : List (LSpec T)) (b r : Nat) (m0 : Mat) (ops : List (Op T)) (out : Nat)
    (outM : Mat) (K : Ptr → T → Prop) (w w' : World T) : Prop where
  grow : Grow (fun l => b ≤ l ∧ l ≤ b + ls.length) (fun q => ∃ k ≤ ls.length, q = (w.layers (b + k)).ref) ops w w'
  same : ∀ l, (w'.layers l).kind = (w.layers l).kind ∧ (w'.layers l).pre = (w.layers l).pre ∧
    (w'.layers l).act = (w.layers l).act ∧ (w'.layers l).trainable = (w.layers l).trainable ∧
    (w'.layers l).bp = (w.layers l).bp ∧ (w'.layers l).saved = (w.layers l).saved ∧
    (w'.layers l).loaded = (w.layers l).loaded ∧ (w'.layers l).build = (w.layers l).build
  ffs : ∀ k ≤ ls.length, 0 < k → (w'.layers (b + k)).ff = true
  refp : ∀ k ≤ ls.length, ∃ j ≤ ls.length, (w'.layers (b + k)).ref = (w.layers (b + j)).ref
  src : ∃ rl, Source w' (b + ls.length) rl ∧ (rl = r ∨ (b < rl ∧ rl ≤ b + ls.length)) ∧ (w'.layers rl).output = some out ∧ LeafDif w' rl ∧
    (b + ls.length ≠ rl → Via w' 1 (b + ls.length) rl)
  rl : r < b
  ready : Ready w' out outM
  oshape : outM.shape = outShapes ls shape
  stage : Stage w.store.heap.next w'.store.heap.next (fun q => ∃ k < ls.length, ownCell w (b + 1 + k) q) ops m0 outM
    ((List.range ls.length).map fun k => layerParams w' (b + 1 + k)) K (netFn ls) (Safe ls shape)
  kept : ∀ q c, K q c → w'.store.heap.val q = c
  pshape : ∀ k s, ls[k]? = some s → (layerParams w' (b + 1 + k)).map Mat.shape =
    s.paramShapes (outShapes (ls.take k) shape)
  pready : ∀ k < ls.length, ∀ n, ((w'.layers (b + 1 + k)).weights = some n ∨ (w'.layers (b + 1 + k)).bias = some n) →
    ∃ m, Ready w' n m ∧ m.ops.Nodup
  both : ∀ k ≤ ls.length, ((w'.layers (b + k)).weights = none ↔ (w'.layers (b + k)).bias = none)
  wn : (w'.layers b).weights = none ∧ (w'.layers b).bias = none
  pdist : (((List.range ls.length).map fun k => layerParams w' (b + 1 + k)).flatten.flatMap Mat.ops).Nodup

theorem JAt.init {shape : List Nat} {ls : List (LSpec T)} {s : LSpec T} {b r inp0 : Nat} {m0 : Mat} {w : World T}
    (S : JAt shape (ls ++ [s]) b r inp0 m0 w) (f : Layer T → Layer T) :
    JAt shape ls b r inp0 m0 (updL (b + 1 + ls.length) f w) := by
  have hlt : ∀ k, k ≤ ls.length → b + k ≠ b + 1 + ls.length := fun k hk => by omega
  have e0 : (updL (b + 1 + ls.length) f w).layers b = w.layers b := updL_ne f w (by omega)
  have hlay : ∀ k s', ls[k]? = some s' → LayerAt s' w (b + 1 + k) := fun k s' h => S.lay k s' (by
    rw [List.getElem?_append_left (List.getElem?_eq_some_iff.1 h).1]; exact h)
  have hown : ∀ k, k < ls.length → ∀ q, ownCell (updL (b + 1 + ls.length) f w) (b + 1 + k) q ↔ ownCell w (b + 1 + k) q :=
    fun k hk q => by
    have e : (updL (b + 1 + ls.length) f w).layers (b + 1 + k) = w.layers (b + 1 + k) := updL_ne f w (by omega)
    exact ownCell_congr (w := w) (congrArg Layer.kind e) (congrArg Layer.output e) (fun _ _ _ => rfl) q
  have := S.rlt
  have er : (updL (b + 1 + ls.length) f w).layers r = w.layers r := updL_ne f w (by omega)
  refine ⟨⟨S.pos, by rw [e0]; exact S.kind, by rw [e0]; exact S.pre, S.rlt, by rw [er]; exact S.rk, by rw [er]; exact S.rff,
    by rw [er]; exact S.rout, S.rdif.grow (grow_updL (L := (· = b + 1 + ls.length)) (C := fun _ => False) rfl f w) (by omega),
    by rw [e0]; exact S.ff, S.rin.updL _ _, S.shape, by rw [e0]; exact S.wn, ?_, ?_⟩, ?_⟩
  · intro k s' h
    have := (List.getElem?_eq_some_iff.1 h).1
    exact (hlay k s' h).updL (by omega)
  · intro k hk q hq
    obtain ⟨h1, h2⟩ := S.dis k (by simp; omega) q ((hown k hk q).1 hq)
    refine ⟨h1, fun k' hk' hq' => h2 k' hk' ((hown k' (by omega) q).1 hq')⟩
  · intro k hk
    have e : (updL (b + 1 + ls.length) f w).layers (b + k) = w.layers (b + k) := updL_ne f w (hlt k hk)
    rw [e]
    exact S.ref k (by simp; omega)


theorem j_link {shape : List Nat} {b r inp0 : Nat} {m0 : Mat} {w : World T}
    (S : JAt shape [] b r inp0 m0 w) (f : Nat) :
    ∃ w', LayerM.feedForward (f + 2) b w = .ok () w' ∧ (w' = w ∨ w' = updL b (fun x => { x with ff := true }) w) := by
  obtain ⟨r1, r2, -⟩ := S.ref 0 (Nat.zero_le _)
  simp only [Nat.add_zero] at r1 r2
  have e : LayerM.feedForward (f + 2) b w = ((do
      if (w.layers b).ff then return () else
        let v ← Run.value (w.layers b).ref
        if eq v zero then return () else
          Run.modify b fun x => { x with ff := true }
          match (w.layers b).kind with
          | .input =>
            match (w.layers b).pre with
            | some p => LayerM.feedForward (f + 1) p
            | none => LayerM.ffBody (f + 1) b (w.layers b).kind (w.layers b).pre
          | .concat l1 l2 _ => do
            LayerM.feedForward (f + 1) l1
            LayerM.feedForward (f + 1) l2
            LayerM.ffBody (f + 1) b (w.layers b).kind (w.layers b).pre
          | _ => do
            match (w.layers b).pre with
            | some p =>
              LayerM.feedForward (f + 1) p
              let o ← LayerM.getOutputs (f + 1) p
              Run.modify b fun x => { x with input := o }
            | none => pure ()
            LayerM.ffBody (f + 1) b (w.layers b).kind (w.layers b).pre : Run T Unit)) w := rfl
  rw [e, S.ff, S.kind, S.pre]
  show ∃ w', (Run.value (w.layers b).ref w).bind _ = .ok () w' ∧ _
  rw [value_ok r1]
  show ∃ w', (if eq (w.store.heap.val (w.layers b).ref) zero then _ else _ : Run T Unit) w = .ok () w' ∧ _
  cases eq (w.store.heap.val (w.layers b).ref) zero with
  | true => exact ⟨w, rfl, Or.inl rfl⟩
  | false =>
    refine ⟨_, ?_, Or.inr rfl⟩
    show LayerM.feedForward (f + 1) r (updL b (fun x => { x with ff := true }) w) = _
    have hr : ((updL b (fun x => { x with ff := true }) w).layers r).ff = true := by
      rw [updL_ne _ _ (ne_of_lt S.rlt)]; exact S.rff
    rw [LayerM.feedForward]
    show (if ((updL b (fun x => { x with ff := true }) w).layers r).ff then _ else _ : Run T Unit) _ = _
    rw [hr]
    rfl

theorem j_input {shape : List Nat} {b r inp0 : Nat} {m0 : Mat} {w : World T}
    (S : JAt shape [] b r inp0 m0 w) (f : Nat) :
    wp True (LayerM.feedForward (f + 2) b) (fun _ w' => ∃ ops out outM K, JAll shape [] b r m0 ops out outM K w w') w := by
  obtain ⟨w', e, h⟩ := j_link S f
  have hrb := S.rlt
  have hl : ∃ y, w'.layers b = { w.layers b with ff := y } := by
    rcases h with rfl | rfl
    · exact ⟨_, rfl⟩
    · exact ⟨true, by rw [updL_same]⟩
  have hst : w'.store = w.store := by rcases h with rfl | rfl <;> rfl
  have G : Grow (· = b) (fun _ => False) [] w w' := by
    rcases h with rfl | rfl
    · exact .refl _ _ _
    · exact grow_updL (L := (· = b)) rfl _ w
  obtain ⟨y, hl⟩ := hl
  have hsame : ∀ l, l ≠ b → w'.layers l = w.layers l := fun l hl => G.layers l hl
  have er := hsame r (by omega)
  have via : Via w' 1 (b + ([] : List (LSpec T)).length) r := by
    simp only [List.length_nil, Nat.add_zero]
    exact .one (by rw [hl]; exact S.kind) (by rw [hl]; exact S.pre)
  refine wp_of_ok e ⟨[], inp0, m0, fun _ _ => False, ?_, ?_, ?_, ?_, ?_, hrb, S.rin.grow G, S.shape, ?_, ?_, ?_, ?_, ?_, ?_, by simp⟩
  · exact G.weaken (fun l hl => ⟨by omega, by simp; omega⟩) fun _ h => h.elim
  · intro l
    by_cases h : l = b
    · subst h; rw [hl]; simp
    · rw [hsame l h]; simp
  · intro k hk
    simp at hk
    omega
  · intro k hk
    have : k = 0 := by simpa using hk
    subst this
    exact ⟨0, le_refl _, by simp only [Nat.add_zero]; rw [hl]⟩
  · exact ⟨r, ⟨by rw [er]; exact S.rk, Or.inr ⟨1, via⟩⟩, Or.inl rfl,
      by rw [er]; exact S.rout, S.rdif.grow G (by omega), fun _ => via⟩
  · exact ((Stage.nil w.store.heap.next m0).mono G.next (fun _ h => h.elim) (fun pv x _ => by
      simp [netFn]) (fun _ => trivial))
  · exact fun _ _ h => h.elim
  · simp
  · simp
  · intro k hk
    have : k = 0 := by simpa using hk
    subst this
    simp only [Nat.add_zero]
    rw [hl]
    simp [S.wn]
  · rw [hl]; exact S.wn

theorem jff_step {shape : List Nat} {ls : List (LSpec T)} {s : LSpec T} {b r inp0 f : Nat} {m0 : Mat} {w w1 : World T}
    (S : JAt shape (ls ++ [s]) b r inp0 m0 w) (hf : 1 < f) (hg : FFGood s)
    (hfit : s.fits (outShapes ls shape)) {ops : List (Op T)} {out : Nat} {outM : Mat} {K : Ptr → T → Prop}
    (A : JAll shape ls b r m0 ops out outM K (updL (b + 1 + ls.length) (fun x => { x with ff := true }) w) w1) :
    wp True (do
      let o ← LayerM.getOutputs f (b + ls.length)
      Run.modify (b + 1 + ls.length) fun x => { x with input := o }
      LayerM.ffBody f (b + 1 + ls.length) s.kind (some (b + ls.length)) : Run T Unit)
      (fun _ w' => ∃ ops out outM K, JAll shape (ls ++ [s]) b r m0 ops out outM K w w') w1 := by
  set l := b + 1 + ls.length with hl
  set w0 := updL l (fun x => { x with ff := true }) w with hw0
  have hlen : (ls ++ [s]).length = ls.length + 1 := by simp
  have hnl : ∀ k, k ≤ ls.length → b + k ≠ l := fun k hk => by omega
  have hs : LayerAt s w l := S.lay ls.length s (by simp)
  have el1 : w1.layers l = w0.layers l := A.grow.layers l (by omega)
  have el0 : w0.layers l = { w.layers l with ff := true } := by rw [hw0, updL_same]
  have g0 : Grow (· = l) (fun _ => False) [] w w0 := by rw [hw0]; exact grow_updL (L := (· = l)) rfl _ w
  obtain ⟨rl, hsrc, hrl, hout, hdif, hvia⟩ := A.src
  have hrb := A.rl
  have hrne : rl ≠ l := by omega
  refine wp_bind (wp_of_ok (delegated_src (field := Layer.output) (by omega) hsrc fun h => ⟨1, hf, hvia h⟩) ?_)
  refine wp_bind (wp_modify ?_)
  set w2 := updL l (fun x => { x with input := (w1.layers rl).output }) w1 with hw2
  show wp True _ _ w2
  have g2 : Grow (· = l) (fun _ => False) [] w1 w2 := by rw [hw2]; exact grow_updL (L := (· = l)) rfl _ w1
  have el2 : w2.layers l = { w.layers l with ff := true, input := some out } := by
    rw [hw2, updL_same, el1, el0, hout]
  have ep2 : w2.layers (b + ls.length) = w1.layers (b + ls.length) := updL_ne _ _ (hnl _ (le_refl _))
  have er2 : w2.layers rl = w1.layers rl := updL_ne _ _ hrne
  have hik : ∀ k, (w1.layers k).kind = .input → w2.layers k = w1.layers k := fun k hk => by
    refine updL_ne _ _ fun e => ?_
    rw [e, el1, el0] at hk
    have := hs.kind.symm.trans hk
    cases s <;> cases this
  have h12 : w2.store = w1.store := rfl
  have h00 : w0.store = w.store := rfl
  -- the layer's own scalars
  have gA : Grow (fun k => b ≤ k ∧ k ≤ l) (fun q => ∃ k ≤ ls.length, q = (w.layers (b + k)).ref) ops w w2 := by
    have x1 := g0.weaken (L' := fun k => b ≤ k ∧ k ≤ l) (C' := fun q => ∃ k ≤ ls.length, q = (w.layers (b + k)).ref)
      (fun k hk => by omega) (fun _ h => h.elim)
    have x2 := A.grow.weaken (L' := fun k => b ≤ k ∧ k ≤ l) (C' := fun q => ∃ k ≤ ls.length, q = (w.layers (b + k)).ref)
      (fun k hk => by omega) (fun q ⟨k, hk, hq⟩ => ⟨k, hk, by rw [hq, hw0, updL_ne _ _ (hnl _ hk)]⟩)
    have x3 := g2.weaken (L' := fun k => b ≤ k ∧ k ≤ l) (C' := fun q => ∃ k ≤ ls.length, q = (w.layers (b + k)).ref)
      (fun k hk => by omega) (fun _ h => h.elim)
    simpa using x1.trans (x2.trans x3)
  have own20 : ∀ q, ownCell w2 l q ↔ ownCell w l q := fun q => by
    refine ownCell_congr (by rw [el2]) (by rw [el2]) (fun o hk ho => ?_) q
    obtain ⟨m, hm⟩ := hs.own.mat hs.kind hk ho
    rw [(hm.grow gA).mat, hm.mat]
  have ownlt : ∀ k, k ≤ ls.length → ∀ q, ownCell w (b + 1 + k) q → q < w.store.heap.next := fun k hk q hq => by
    have : (ls ++ [s])[k]? = some ((ls ++ [s])[k]'(by simp; omega)) := by simp
    exact (S.lay k _ this).own_lt hq
  have own0 : ∀ k, k < ls.length → ∀ q, ownCell w0 (b + 1 + k) q ↔ ownCell w (b + 1 + k) q := fun k hk q => by
    have e : w0.layers (b + 1 + k) = w.layers (b + 1 + k) := updL_ne _ w (by omega)
    exact ownCell_congr (w := w) (congrArg Layer.kind e) (congrArg Layer.output e) (fun _ _ _ => rfl) q
  have hrp : ∀ k ≤ ls.length, ∃ j ≤ ls.length, (w1.layers (b + k)).ref = (w.layers (b + j)).ref := fun k hk => by
    obtain ⟨j, hj, e⟩ := A.refp k hk
    exact ⟨j, hj, by rw [e, hw0, updL_ne _ _ (hnl j hj)]⟩
  have hin : ∀ q, ownCell w l q → q ∉ outM.ops := by
    intro q hq hm
    obtain ⟨d1, d2⟩ := S.dis ls.length (by simp) q hq
    rcases A.stage.out q hm with h | h | ⟨k, hk, h⟩
    · exact d1 h
    · have := hs.own_lt hq; rw [h00] at h; omega
    · exact d2 k hk ((own0 k hk q).1 h)
  have P : FFPre s w2 f l (b + ls.length) out outM := by
    refine ⟨lt_of_lt_of_le S.pos gA.next, by rw [el2]; exact hs.kind, by rw [el2]; exact hs.act, by rw [el2],
      A.ready.grow g2, hnl _ (le_refl _), ⟨rl, hrne, hsrc.congr hik er2, by rw [er2]; exact hout, fun h => ⟨1, hf, (hvia h).congr hik⟩⟩, by omega,
      by
        have := (S.ref (ls.length + 1) (by simp)).1
        rw [show b + (ls.length + 1) = l by omega] at this
        rw [el2]; exact this, by
        obtain ⟨j, hj, e⟩ := hrp ls.length (le_refl _)
        rw [ep2, e]; exact (S.ref j (by rw [hlen]; omega)).1,
      ⟨by
        obtain ⟨j, hj, e⟩ := hrp ls.length (le_refl _)
        rw [ep2, e]; exact lt_of_lt_of_le (S.ref j (by rw [hlen]; omega)).2.1 gA.next, by
        have := (S.ref (ls.length + 1) (by simp)).2.1
        rw [show b + (ls.length + 1) = l by omega] at this
        rw [el2]; exact lt_of_lt_of_le this gA.next⟩, ?_, fun q hq => hin q ((own20 q).1 hq), by rw [A.oshape]; exact hfit, by rw [el2]; exact hs.wn⟩
    cases s with
    | dense n a =>
      obtain ⟨o', m, h1, h2, h3⟩ := hs.own
      exact ⟨o', m, by rw [el2]; exact h1, h2.grow gA, h3⟩
    | _ => trivial
  refine wp_mono (wp_eq (hg w2 f l (b + ls.length) out outM P)) ?_
  rintro _ w' ⟨⟨ops2, out2, outM2, K2, D, E⟩, -⟩
  have elw : ∀ k, k ≠ l → w'.layers k = w1.layers k := fun k hk => by
    rw [D.grow.layers k hk, hw2, updL_ne _ _ hk]
  obtain ⟨jp, hjp, ejp⟩ := hrp ls.length (le_refl _)
  have ejp2 : (w2.layers (b + ls.length)).ref = (w.layers (b + jp)).ref := by rw [ep2, ejp]
  have hown2 : ownCell w2 l = ownCell w l := funext fun q => propext (own20 q)
  have hpar : ∀ k, k < ls.length → layerParams w' (b + 1 + k) = layerParams w1 (b + 1 + k) := fun k hk => by
    have e1 : layerParams w2 (b + 1 + k) = layerParams w1 (b + 1 + k) := by
      unfold layerParams; rw [hw2, updL_ne _ _ (by omega)]; rfl
    rw [← e1]
    refine layerParams_grow D.grow (by omega) fun n hn => ?_
    have e2 : w2.layers (b + 1 + k) = w1.layers (b + 1 + k) := updL_ne _ _ (by omega)
    rw [e2] at hn
    obtain ⟨m, h1, h2⟩ := A.pready k hk n hn
    exact ⟨m, h1.grow g2, h2⟩
  have hidx : ∀ k, k ≤ (ls ++ [s]).length → k ≤ ls.length ∨ (k = ls.length + 1 ∧ b + k = l) := fun k hk => by
    rw [hlen] at hk; omega
  have hidx' : ∀ k s', (ls ++ [s])[k]? = some s' → (k < ls.length ∧ ls[k]? = some s') ∨ (k = ls.length ∧ s' = s) := by
    intro k s' h
    have hk := (List.getElem?_eq_some_iff.1 h).1
    rw [hlen] at hk
    rcases Nat.lt_or_ge k ls.length with h1 | h1
    · left; rw [List.getElem?_append_left h1] at h; exact ⟨h1, h⟩
    · right
      have : k = ls.length := by omega
      subst this
      simp at h
      exact ⟨rfl, h.symm⟩
  refine ⟨ops ++ ops2, out2, outM2, fun q c => K q c ∨ K2 q c, ?_, ?_, ?_, ?_, ?_, hrb, D.ready, ?_, ?_, ?_, ?_, ?_, ?_, ?_, ?_⟩
  · have x1 := gA.weaken (L' := fun k => b ≤ k ∧ k ≤ b + (ls ++ [s]).length)
      (C' := fun q => ∃ k ≤ (ls ++ [s]).length, q = (w.layers (b + k)).ref)
      (fun k hk => by rw [hlen]; omega) (fun q ⟨k, hk, hq⟩ => ⟨k, by rw [hlen]; omega, hq⟩)
    have x2 := D.grow.weaken (L' := fun k => b ≤ k ∧ k ≤ b + (ls ++ [s]).length)
      (C' := fun q => ∃ k ≤ (ls ++ [s]).length, q = (w.layers (b + k)).ref)
      (fun k hk => by rw [hlen]; omega) (fun q hq => ⟨jp, by rw [hlen]; omega, by rw [hq, ejp2]⟩)
    exact x1.trans x2
  · intro k
    by_cases hk : k = l
    · rw [hk, D.kind, D.pre, D.act, D.flags.1, D.flags.2.1, D.flags.2.2.1, D.flags.2.2.2.1, D.flags.2.2.2.2, el2]; simp
    · rw [elw k hk]
      have := A.same k
      rw [hw0, updL_ne _ _ hk] at this
      exact this
  · intro k hk hk0
    rcases hidx k hk with h | ⟨_, h⟩
    · rw [elw _ (hnl k h)]; exact A.ffs k h hk0
    · rw [h, D.ff, el2]
  · intro k hk
    rcases hidx k hk with h | ⟨h1, h⟩
    · rw [elw _ (hnl k h)]
      obtain ⟨j, hj, e⟩ := hrp k h
      exact ⟨j, by rw [hlen]; omega, e⟩
    · rcases D.ref with e | e
      · exact ⟨k, hk, by rw [h, e, el2]⟩
      · exact ⟨jp, by rw [hlen]; omega, by rw [h, e, ejp2]⟩
  · refine ⟨l, ⟨Or.inr ⟨s, by rw [D.kind, el2]; exact hs.kind⟩, Or.inl (by rw [hlen]; omega)⟩, Or.inr ⟨by omega, by rw [hlen]; omega⟩, D.output, ?_, fun h => absurd (by rw [hlen]; omega) h⟩
    by_cases hsm : s = .softMax
    · have e1 := E.difp hsm rl (hsrc.congr hik er2)
      have er1 := er2
      obtain ⟨d, dM, h1, h2, h3⟩ := (hdif.grow g2 hrne).grow D.grow hrne
      refine ⟨d, dM, ?_, h2, h3⟩
      rw [e1, ← D.grow.layers rl hrne]; exact h1
    · obtain ⟨d, dM, h1, h2⟩ := E.difn hsm
      exact ⟨d, dM, h1, h2.ready, h2.leaf⟩
  · rw [D.shape, A.oshape, outShapes_append]
  · have S2 := D.stage
    rw [h12, hown2] at S2
    have C := A.stage.comp S2 A.grow.next (by rw [← h12]; exact D.grow.next)
      (fun q ⟨k, hk, hq⟩ => ownlt k (le_of_lt hk) q ((own0 k hk q).1 hq)) (fun q hq => ownlt ls.length (le_refl _) q hq)
    have eps : ((List.range ls.length).map fun k => layerParams w1 (b + 1 + k)) ++ [layerParams w' l] =
        (List.range (ls ++ [s]).length).map fun k => layerParams w' (b + 1 + k) := by
      rw [hlen, List.range_succ, List.map_append]
      congr 1
      refine List.map_congr_left fun k hk => ?_
      rw [hpar k (List.mem_range.1 hk)]
    rw [eps] at C
    refine C.mono (le_refl _) ?_ ?_ ?_
    · rintro q (⟨k, hk, hq⟩ | hq)
      · exact ⟨k, by rw [hlen]; omega, (own0 k hk q).1 hq⟩
      · exact ⟨ls.length, by rw [hlen]; omega, hq⟩
    · intro pv x hpv
      simp only [List.length_map, List.length_range, hlen] at hpv
      simp only [List.length_map, List.length_range]
      have e1 : pv.take ls.length ++ [(pv.drop ls.length).headD []] = pv := by
        have : pv.drop ls.length = [(pv.drop ls.length).headD []] := by
          have hl1 : (pv.drop ls.length).length = 1 := by simp [hpv]
          match pv.drop ls.length, hl1 with
          | [a], _ => rfl
        rw [← this, List.take_append_drop]
      conv_rhs => rw [← e1]
      rw [netFn_append (by simp [hpv])]
    · rw [safe_append, A.oshape]; exact fun h => h
  · intro q c hk
    rcases hk with hk | hk
    · obtain ⟨k1, k2, _⟩ := A.stage.keep q c hk
      rw [D.grow.val q k2 fun e => ?_]
      · exact A.kept q c hk
      · have := (S.ref jp (by rw [hlen]; omega)).2.1
        rw [← ejp2, ← e] at this
        rw [h00] at k1
        omega
    · exact D.kept q c hk
  · intro k s' h
    rcases hidx' k s' h with ⟨h1, h2⟩ | ⟨h1, h2⟩
    · rw [hpar k h1, A.pshape k s' h2, List.take_append_of_le_length (by omega)]
    · rw [h1, h2, D.pshape, A.oshape]; simp
  · intro k hk n hn
    rw [hlen] at hk
    rcases Nat.lt_or_ge k ls.length with h1 | h1
    · rw [elw _ (by omega)] at hn
      obtain ⟨m, x1, x2⟩ := A.pready k h1 n hn
      exact ⟨m, (x1.grow g2).grow D.grow, x2⟩
    · have : b + 1 + k = l := by omega
      rw [this] at hn
      exact D.pready n hn
  · intro k hk
    rcases hidx k hk with h | ⟨_, h⟩
    · rw [elw _ (hnl k h)]; exact A.both k h
    · rw [h]; exact D.both
  · rw [elw b (by omega)]; exact A.wn
  · rw [hlen, List.range_succ, List.map_append, List.flatten_append, List.flatMap_append]
    have e1 : ((List.range ls.length).map fun k => layerParams w' (b + 1 + k)) =
        (List.range ls.length).map fun k => layerParams w1 (b + 1 + k) :=
      List.map_congr_left fun k hk => hpar k (List.mem_range.1 hk)
    rw [e1]
    refine List.nodup_append.2 ⟨A.pdist, by simpa using D.pdist, ?_⟩
    rintro x hx y hy rfl
    obtain ⟨m1, hm1, hx1⟩ := List.mem_flatMap.1 hx
    obtain ⟨p1, hp1, hmp1⟩ := List.mem_flatten.1 hm1
    obtain ⟨m2, hm2, hx2⟩ := List.mem_flatMap.1 hy
    have h1 := A.stage.par p1 hp1 m1 hmp1 x hx1
    have h2 := D.stage.par (layerParams w' l) (by simp) m2 (by simpa using hm2) x hx2
    rw [h12] at h2
    omega

/-- building the feed-forward part of a chain of layers -/
theorem jff_chain {shape : List Nat} {ls : List (LSpec T)} {b r inp0 f : Nat} {m0 : Mat} {w : World T}
    (S : JAt shape ls b r inp0 m0 w) (hf : ls.length + 1 < f) (hg : ∀ s ∈ ls, FFGood s) (hfit : Fits ls shape) :
    wp True (LayerM.feedForward f (b + ls.length)) (fun _ w' => ∃ ops out outM K,
      JAll shape ls b r m0 ops out outM K w w') w := by
  induction ls using List.reverseRecOn generalizing f w with
  | nil =>
    obtain ⟨f, rfl⟩ : ∃ g, f = g + 2 := ⟨f - 2, by simp at hf; omega⟩
    exact j_input S f
  | append_singleton ls s ih =>
    simp only [List.length_append, List.length_singleton] at hf
    obtain ⟨f, rfl⟩ : ∃ g, f = g + 1 := ⟨f - 1, by omega⟩
    have hs : LayerAt s w (b + 1 + ls.length) := S.lay ls.length s (by simp)
    obtain ⟨r1, r2, r3'⟩ := S.ref (ls.length + 1) (by simp)
    have r3 := r3' (by omega)
    clear r3'
    rw [show b + (ls.length + 1) = b + 1 + ls.length by omega] at r1 r2 r3
    have hpre : (w.layers (b + 1 + ls.length)).pre = some (b + ls.length) := by
      rw [hs.pre]; congr 1; omega
    have e := ff_unfold (f := f) hs.ff hs.kind hpre r1 r3
    obtain ⟨f1, f2⟩ := fits_append.1 hfit
    have hid : b + (ls ++ [s]).length = b + 1 + ls.length := by simp; omega
    rw [hid]
    suffices h : wp True (do
        LayerM.feedForward f (b + ls.length)
        let o ← LayerM.getOutputs f (b + ls.length)
        Run.modify (b + 1 + ls.length) fun x => { x with input := o }
        LayerM.ffBody f (b + 1 + ls.length) s.kind (some (b + ls.length)) : Run T Unit)
        (fun _ w' => ∃ ops out outM K, JAll shape (ls ++ [s]) b r m0 ops out outM K w w')
        (updL (b + 1 + ls.length) (fun x => { x with ff := true }) w) by
      unfold wp at h ⊢; rw [e]; exact h
    refine wp_bind (wp_mono (ih (S.init _) (by omega) (fun s hs => hg s (by simp [hs])) f1) ?_)
    rintro _ w1 ⟨ops, out, outM, K, A⟩
    exact jff_step S (by omega) (hg s (by simp)) f2 A

end Godeep
