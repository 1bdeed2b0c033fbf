import Verif.Lemmas.BranchVal
import Verif.Lemmas.FFView
/-
  Feed-forward of a graph of layers.
-/
set_option linter.unusedSectionVars false

namespace Godeep
open Spec GoNum

variable {T : Type} [GoNum T]

theorem concat_tab {a b a' b' : STensor T} {d : Nat} (h : a.tab = a'.tab) (h' : b.tab = b'.tab) (hd : d < a.shape.length)
    (hs : b.shape = a.shape.set d (b.shape.getD d 0)) : (a.concat b d).tab = (a'.concat b' d).tab := by
  obtain ⟨h1, h2⟩ := tab_iff.1 h
  obtain ⟨k1, k2⟩ := tab_iff.1 h'
  obtain ⟨c1, c2, c3⟩ := Props.concat_shape (A := a) (B := b) hd hs
  refine tab_iff.2 ⟨by show a.shape.modify d _ = a'.shape.modify d _; rw [h1, k1], fun idx hi => ?_⟩
  rw [c1] at hi
  obtain ⟨v, h3, h4, h5, h6⟩ := inRange_set_elim hd hi
  show (if idx.getD d 0 < a.shape.getD d 0 then a.get idx else b.get (idx.modify d (· - a.shape.getD d 0))) =
    (if idx.getD d 0 < a'.shape.getD d 0 then a'.get idx else b'.get (idx.modify d (· - a'.shape.getD d 0)))
  rw [← h1, h4]
  split
  · next hv =>
    have e : idx.set d v = idx := by
      apply List.ext_getElem?
      intro k
      rw [List.getElem?_set]
      by_cases hk : d = k
      · subst hk
        have := (List.getElem?_eq_some_iff.1 h3).1
        rw [if_pos rfl, if_pos this, h3]
      · simp [hk]
    have := h6 v hv
    rw [e] at this
    exact h2 _ this
  · next hv =>
    rw [modify_eq_set _ h3]
    refine k2 _ ?_
    have := inRange_set_intro (s := a.shape.set d (a.shape.getD d 0 + b.shape.getD d 0)) (d := d) (n := b.shape.getD d 0) (w := v - a.shape.getD d 0)
      (by simpa using hd) hi (by omega)
    rw [List.set_set] at this
    rw [hs]; exact this

/-- a graph of layers that is ready for feed-forward; the layers in `R` have been built -/
structure BrGAt (shape : List Nat) (ns : List (BNode T)) (b inp0 : Nat) (m0 : Mat) (R : Nat → Prop) (w : World T) : Prop
    extends GBase shape ns b inp0 m0 w where
  ref : ∀ k ≤ ns.length, R k → 0 < (w.layers (b + k)).ref ∧ (w.layers (b + k)).ref < w.store.heap.next ∧
    eq (w.store.heap.val (w.layers (b + k)).ref) zero = false
  inj : ∀ j k, j ≤ ns.length → k ≤ ns.length → R j → R k → (w.layers (b + j)).ref = (w.layers (b + k)).ref → j = k
  close : ∀ k ≤ ns.length, R k → ∀ d ∈ greads ns k, R d

theorem GBase.own_zero {shape : List Nat} {ns : List (BNode T)} {b inp0 : Nat} {m0 : Mat} {w : World T}
    (S : GBase shape ns b inp0 m0 w) (q : Ptr) : ¬ ownCell w b q := by
  unfold ownCell; rw [S.kind]; exact id

theorem GBase.own_lt {shape : List Nat} {ns : List (BNode T)} {b inp0 : Nat} {m0 : Mat} {w : World T}
    (S : GBase shape ns b inp0 m0 w) {k : Nat} (hk : k ≤ ns.length) {q : Ptr} (hq : ownCell w (b + k) q) : q < w.store.heap.next := by
  cases k with
  | zero => exact absurd hq (S.own_zero q)
  | succ k =>
    rw [show b + (k + 1) = b + 1 + k by omega] at hq
    exact (S.at hk).own_lt hq

theorem GBase.own_in {shape : List Nat} {ns : List (BNode T)} {b inp0 : Nat} {m0 : Mat} {w : World T}
    (S : GBase shape ns b inp0 m0 w) {k : Nat} (hk : k ≤ ns.length) {q : Ptr} (hq : ownCell w (b + k) q) : q ∉ m0.ops := by
  cases k with
  | zero => exact absurd hq (S.own_zero q)
  | succ k =>
    rw [show b + (k + 1) = b + 1 + k by omega] at hq
    exact (S.dis k hk q hq).1

theorem GBase.own_ne {shape : List Nat} {ns : List (BNode T)} {b inp0 : Nat} {m0 : Mat} {w : World T}
    (S : GBase shape ns b inp0 m0 w) {j k : Nat} (hj : j ≤ ns.length) (hk : k ≤ ns.length) (hjk : j ≠ k) {q : Ptr}
    (h1 : ownCell w (b + j) q) (h2 : ownCell w (b + k) q) : False := by
  cases k with
  | zero => exact S.own_zero q h2
  | succ k =>
    cases j with
    | zero => exact S.own_zero q h1
    | succ j =>
      rw [show b + (j + 1) = b + 1 + j by omega] at h1
      rw [show b + (k + 1) = b + 1 + k by omega] at h2
      rcases Nat.lt_or_ge j k with h | h
      · exact (S.dis k hk q h2).2 j h h1
      · exact (S.dis j hj q h1).2 k (by omega) h2

/-- the `TensorMat` of the output of layer `l` -/
def outMat (w : World T) (l : Nat) : Mat := (w.store.nodes ((w.layers l).output.getD 0)).mat

/-- what building the feed-forward part of the layers in `V` has done; `ops` are the operations, and `K q c`: scalar `q` must hold `c` -/
structure BrFF (shape : List Nat) (ns : List (BNode T)) (b inp0 : Nat) (m0 : Mat) (V : Nat → Prop) (ops : List (Op T))
    (K : Ptr → T → Prop) (w0 w : World T) : Prop where
  sub : ∀ k, V k → k ≤ ns.length
  grow : Grow (fun l => b ≤ l ∧ l ≤ b + ns.length) (fun q => ∃ j, V j ∧ q = (w0.layers (b + j)).ref) ops w0 w
  rest : ∀ k ≤ ns.length, ¬ V k → ∃ f, w.layers (b + k) = { w0.layers (b + k) with ff := f }
  seen : ∀ k, V k → (w.layers (b + k)).ff = true ∧ (w.layers (b + k)).kind = (w0.layers (b + k)).kind ∧
    (w.layers (b + k)).pre = (w0.layers (b + k)).pre
  refs : ∀ k, V k → ∃ j, V j ∧ (w.layers (b + k)).ref = (w0.layers (b + j)).ref
  dif : ∀ k, V k → ∃ d, (w.layers (b + k)).dif = some d
  out : ∀ k, V k → ∃ o, (w.layers (b + k)).output = some o ∧ Ready w o (outMat w (b + k))
  oshape : ∀ k, V k → (outMat w (b + k)).shape = gshape ns shape k
  cells : ∀ k, V k → ∀ q ∈ (outMat w (b + k)).ops, q ∈ m0.ops ∨ (w0.store.heap.next ≤ q ∧ q < w.store.heap.next) ∨
    ∃ j, V j ∧ ownCell w0 (b + j) q
  in0 : (w.layers b).input = some inp0 ∧ (w.layers b).weights = none ∧ (w.layers b).bias = none
  dst : ∀ q ∈ dsts ops, (w0.store.heap.next ≤ q ∧ q < w.store.heap.next) ∨ ∃ j, V j ∧ ownCell w0 (b + j) q
  pready : ∀ k, V k → ∀ n, ((w.layers (b + k)).weights = some n ∨ (w.layers (b + k)).bias = some n) →
    ∃ m, Ready w n m ∧ m.ops.Nodup
  par : ∀ k, V k → ∀ m ∈ layerParams w (b + k), ∀ q ∈ m.ops, w0.store.heap.next ≤ q ∧ q < w.store.heap.next ∧ q ∉ dsts ops
  keep : ∀ q c, K q c → w0.store.heap.next ≤ q ∧ q < w.store.heap.next ∧ q ∉ dsts ops ∧
    ∀ k, V k → ∀ m ∈ layerParams w (b + k), q ∉ m.ops
  kept : ∀ q c, K q c → w.store.heap.val q = c
  run : ∀ (h h' : Heap T) x pv, w.store.heap.next ≤ h.next → (∀ q c, K q c → h.val q = c) → Holds h m0 x → pv.length = ns.length →
    (∀ k, V k → List.Forall₂ (Holds h) (layerParams w (b + k)) (gpar pv k)) → exec ops h = .ok () h' →
    ∀ k, V k → Holds h' (outMat w (b + k)) (graphFn ns k pv x)
  fine : GraphSafe ns shape → ∀ o ∈ ops, Fine o
  pshape : ∀ (k : Nat) (n : BNode T), V (k + 1) → ns[k]? = some n →
    (layerParams w (b + (k + 1))).map Mat.shape = n.paramShapes (gshape ns shape)
  close : ∀ k, V k → ∀ i ∈ greads ns k, V i
  cin : ∀ k i j d, V k → (w.layers (b + k)).kind = .concat i j d → (w.layers (b + k)).input = (w.layers (b + k)).output

/-- what building the feed-forward part of layer number `k` has done -/
structure NodeDone (shape : List Nat) (ns : List (BNode T)) (b inp0 : Nat) (m0 : Mat) (V : Nat → Prop) (k : Nat) (ops : List (Op T))
    (K : Ptr → T → Prop) (w0 w w' : World T) : Prop where
  grow : Grow (· = b + k) (fun q => ∃ j, V j ∧ q = (w0.layers (b + j)).ref) ops w w'
  seen : (w'.layers (b + k)).ff = true ∧ (w'.layers (b + k)).kind = (w0.layers (b + k)).kind ∧
    (w'.layers (b + k)).pre = (w0.layers (b + k)).pre
  ref : (w'.layers (b + k)).ref = (w0.layers (b + k)).ref ∨ ∃ j, V j ∧ (w'.layers (b + k)).ref = (w0.layers (b + j)).ref
  dif : ∃ d, (w'.layers (b + k)).dif = some d
  out : ∃ o, (w'.layers (b + k)).output = some o ∧ Ready w' o (outMat w' (b + k))
  oshape : (outMat w' (b + k)).shape = gshape ns shape k
  cells : ∀ q ∈ (outMat w' (b + k)).ops, q ∈ m0.ops ∨ (∃ i ∈ greads ns k, q ∈ (outMat w (b + i)).ops) ∨
    (w.store.heap.next ≤ q ∧ q < w'.store.heap.next) ∨ ownCell w0 (b + k) q
  in0 : k = 0 → (w'.layers b).input = some inp0 ∧ (w'.layers b).weights = none ∧ (w'.layers b).bias = none
  dst : ∀ q ∈ dsts ops, (w.store.heap.next ≤ q ∧ q < w'.store.heap.next) ∨ ownCell w0 (b + k) q
  pready : ∀ n, ((w'.layers (b + k)).weights = some n ∨ (w'.layers (b + k)).bias = some n) → ∃ m, Ready w' n m ∧ m.ops.Nodup
  par : ∀ m ∈ layerParams w' (b + k), ∀ q ∈ m.ops, w.store.heap.next ≤ q ∧ q < w'.store.heap.next ∧ q ∉ dsts ops
  keep : ∀ q c, K q c → w.store.heap.next ≤ q ∧ q < w'.store.heap.next ∧ q ∉ dsts ops ∧ ∀ m ∈ layerParams w' (b + k), q ∉ m.ops
  kept : ∀ q c, K q c → w'.store.heap.val q = c
  run : ∀ (h h' : Heap T) x pv, w'.store.heap.next ≤ h.next → (∀ q c, K q c → h.val q = c) → Holds h m0 x → pv.length = ns.length →
    (∀ i ∈ greads ns k, Holds h (outMat w (b + i)) (graphFn ns i pv x)) →
    List.Forall₂ (Holds h) (layerParams w' (b + k)) (gpar pv k) → exec ops h = .ok () h' →
    Holds h' (outMat w' (b + k)) (graphFn ns k pv x)
  fine : GraphSafe ns shape → ∀ o ∈ ops, Fine o
  pshape : ∀ (j : Nat) (n : BNode T), k = j + 1 → ns[j]? = some n → (layerParams w' (b + k)).map Mat.shape = n.paramShapes (gshape ns shape)
  cin : ∀ i j d, (w'.layers (b + k)).kind = .concat i j d → (w'.layers (b + k)).input = (w'.layers (b + k)).output

theorem outMat_eq {w : World T} {l o : Nat} {m : Mat} (h : (w.layers l).output = some o) (r : Ready w o m) : outMat w l = m := by
  unfold outMat; rw [h]; exact r.mat

theorem outMat_kept {L : Nat → Prop} {C : Ptr → Prop} {new : List (Op T)} {w w' : World T} {l o : Nat}
    (g : Grow L C new w w') (hl : w'.layers l = w.layers l) (h : (w.layers l).output = some o) (r : Ready w o (outMat w l)) :
    outMat w' l = outMat w l := outMat_eq (by rw [hl]; exact h) (r.grow g)

theorem BrFF.step {shape : List Nat} {ns : List (BNode T)} {b inp0 : Nat} {m0 : Mat} {R V : Nat → Prop} {ops ops2 : List (Op T)}
    {K K2 : Ptr → T → Prop} {w0 w w' : World T} {k : Nat} (S : BrGAt shape ns b inp0 m0 R w0) (A : BrFF shape ns b inp0 m0 V ops K w0 w)
    (hk : k ≤ ns.length) (hv : ¬ V k) (hrd : ∀ i ∈ greads ns k, V i) (hR : ∀ j, V j → R j)
    (D : NodeDone shape ns b inp0 m0 V k ops2 K2 w0 w w') :
    BrFF shape ns b inp0 m0 (fun j => V j ∨ j = k) (ops ++ ops2) (fun q c => K q c ∨ K2 q c) w0 w' := by
  have n0 := A.grow.next
  have n1 := D.grow.next
  have hne : ∀ j, V j → b + j ≠ b + k := fun j hj e => hv (by rwa [show j = k by omega] at hj)
  have hlay : ∀ j, V j → w'.layers (b + j) = w.layers (b + j) := fun j hj => D.grow.layers _ (hne j hj)
  have hout : ∀ j, V j → outMat w' (b + j) = outMat w (b + j) := fun j hj => by
    obtain ⟨o, h1, h2⟩ := A.out j hj
    exact outMat_kept D.grow (hlay j hj) h1 h2
  have hpar : ∀ j, V j → layerParams w' (b + j) = layerParams w (b + j) := fun j hj =>
    layerParams_grow D.grow (hne j hj) (A.pready j hj)
  have hown : ∀ j, V j → ∀ q, ownCell w0 (b + j) q → q < w0.store.heap.next ∧ ¬ ownCell w0 (b + k) q := fun j hj q hq =>
    ⟨S.own_lt (A.sub j hj) hq, fun h => S.own_ne (A.sub j hj) hk (fun e => hv (by rwa [e] at hj)) hq h⟩
  have hd1 : ∀ q ∈ dsts ops, q < w.store.heap.next := fun q hq => by
    rcases A.dst q hq with h | ⟨j, hj, h⟩
    · exact h.2
    · have := (hown j hj q h).1; omega
  have hm0 : ∀ q ∈ m0.ops, q < w0.store.heap.next ∧ q ∉ dsts ops := fun q hq => by
    have := (S.rin.good.valid q hq).2
    refine ⟨this, fun h => ?_⟩
    rcases A.dst q h with h | ⟨j, hj, h⟩
    · omega
    · exact S.own_in (A.sub j hj) h hq
  have hcell : ∀ j, V j → ∀ q ∈ (outMat w (b + j)).ops, q ∉ dsts ops2 := fun j hj q hq h => by
    rcases A.cells j hj q hq with h1 | h1 | ⟨i, hi, h1⟩
    · have := (hm0 q h1).1
      rcases D.dst q h with h2 | h2
      · omega
      · exact S.own_in hk h2 h1
    · rcases D.dst q h with h2 | h2
      · omega
      · have := S.own_lt hk h2; omega
    · obtain ⟨x1, x2⟩ := hown i hi q h1
      rcases D.dst q h with h2 | h2
      · omega
      · exact x2 h2
  have hold : ∀ q, w0.store.heap.next ≤ q → q < w.store.heap.next → q ∉ dsts ops2 := fun q h1 h2 h => by
    rcases D.dst q h with h3 | h3
    · omega
    · have := S.own_lt hk h3; omega
  refine ⟨?_, ?_, ?_, ?_, ?_, ?_, ?_, ?_, ?_, ?_, ?_, ?_, ?_, ?_, ?_, ?_, ?_, ?_, ?_, ?_⟩
  · rintro j (h | rfl)
    · exact A.sub j h
    · exact hk
  · exact (A.grow.weaken (fun _ h => h) fun q ⟨j, hj, e⟩ => ⟨j, Or.inl hj, e⟩).trans
      (D.grow.weaken (fun l h => by omega) fun q ⟨j, hj, e⟩ => ⟨j, Or.inl hj, e⟩)
  · intro j hj hn
    obtain ⟨h1, h2⟩ := not_or.1 hn
    rw [D.grow.layers (b + j) (by omega)]
    exact A.rest j hj h1
  · rintro j (h | rfl)
    · rw [hlay j h]; exact A.seen j h
    · exact D.seen
  · rintro j (h | rfl)
    · rw [hlay j h]
      obtain ⟨i, hi, e⟩ := A.refs j h
      exact ⟨i, Or.inl hi, e⟩
    · rcases D.ref with e | ⟨i, hi, e⟩
      · exact ⟨j, Or.inr rfl, e⟩
      · exact ⟨i, Or.inl hi, e⟩
  · rintro j (h | rfl)
    · rw [hlay j h]; exact A.dif j h
    · exact D.dif
  · rintro j (h | rfl)
    · rw [hlay j h, hout j h]
      obtain ⟨o, h1, h2⟩ := A.out j h
      exact ⟨o, h1, h2.grow D.grow⟩
    · exact D.out
  · rintro j (h | rfl)
    · rw [hout j h]; exact A.oshape j h
    · exact D.oshape
  · have key : ∀ j, V j → ∀ q ∈ (outMat w (b + j)).ops, q ∈ m0.ops ∨ (w0.store.heap.next ≤ q ∧ q < w'.store.heap.next) ∨
        ∃ i, (V i ∨ i = k) ∧ ownCell w0 (b + i) q := fun j hj q hq => by
      rcases A.cells j hj q hq with h1 | h1 | ⟨i, hi, h1⟩
      · exact Or.inl h1
      · right; left; omega
      · exact Or.inr (Or.inr ⟨i, Or.inl hi, h1⟩)
    rintro j (h | rfl) q hq
    · rw [hout j h] at hq; exact key j h q hq
    · rcases D.cells q hq with h1 | ⟨i, hi, h1⟩ | h1 | h1
      · exact Or.inl h1
      · exact key i (hrd i hi) q h1
      · right; left; omega
      · exact Or.inr (Or.inr ⟨j, Or.inr rfl, h1⟩)
  · by_cases h : k = 0
    · exact D.in0 h
    · rw [D.grow.layers b (by omega)]; exact A.in0
  · intro q hq
    rw [dsts_append, List.mem_append] at hq
    rcases hq with h | h
    · rcases A.dst q h with h1 | ⟨i, hi, h1⟩
      · left; omega
      · exact Or.inr ⟨i, Or.inl hi, h1⟩
    · rcases D.dst q h with h1 | h1
      · left; omega
      · exact Or.inr ⟨k, Or.inr rfl, h1⟩
  · rintro j (h | rfl) n hn
    · rw [hlay j h] at hn
      obtain ⟨m, h1, h2⟩ := A.pready j h n hn
      exact ⟨m, h1.grow D.grow, h2⟩
    · exact D.pready n hn
  · rintro j (h | rfl) m hm q hq
    · rw [hpar j h] at hm
      obtain ⟨h1, h2, h3⟩ := A.par j h m hm q hq
      refine ⟨h1, by omega, ?_⟩
      rw [dsts_append, List.mem_append]
      rintro (h4 | h4)
      · exact h3 h4
      · exact hold q h1 h2 h4
    · obtain ⟨h1, h2, h3⟩ := D.par m hm q hq
      refine ⟨by omega, h2, ?_⟩
      rw [dsts_append, List.mem_append]
      rintro (h4 | h4)
      · have := hd1 q h4; omega
      · exact h3 h4
  · rintro q c (hK | hK)
    · obtain ⟨h1, h2, h3, h4⟩ := A.keep q c hK
      refine ⟨h1, by omega, ?_, ?_⟩
      · rw [dsts_append, List.mem_append]
        rintro (h5 | h5)
        · exact h3 h5
        · exact hold q h1 h2 h5
      · rintro j (h | rfl) m hm
        · rw [hpar j h] at hm; exact h4 j h m hm
        · intro hq; have := (D.par m hm q hq).1; omega
    · obtain ⟨h1, h2, h3, h4⟩ := D.keep q c hK
      refine ⟨by omega, h2, ?_, ?_⟩
      · rw [dsts_append, List.mem_append]
        rintro (h5 | h5)
        · have := hd1 q h5; omega
        · exact h3 h5
      · rintro j (h | rfl) m hm
        · rw [hpar j h] at hm
          intro hq; have := (A.par j h m hm q hq).2.1; omega
        · exact h4 m hm
  · rintro q c (hK | hK)
    · obtain ⟨h1, h2, _⟩ := A.keep q c hK
      rw [D.grow.val q h2]
      · exact A.kept q c hK
      · rintro ⟨j, hj, e⟩
        have := (S.ref j (A.sub j hj) (hR j hj)).2.1
        omega
    · exact D.kept q c hK
  · intro h h' x pv hn hK H hl hp he
    rw [exec_append_ok] at he
    obtain ⟨hm, e1, e2⟩ := he
    obtain ⟨f1, f2⟩ := exec_frame e1
    obtain ⟨g1, g2⟩ := exec_frame e2
    have X := A.run h hm x pv (by omega) (fun q c hq => hK q c (Or.inl hq)) H hl
      (fun j hj => by rw [← hpar j hj]; exact hp j (Or.inl hj)) e1
    rintro j (hj | rfl)
    · rw [hout j hj]
      exact (X j hj).kept (by omega) fun q hq => g2 q (hcell j hj q hq)
    · refine D.run hm h' x pv (by omega) (fun q c hq => ?_) (H.kept (by omega) fun q hq => f2 q (hm0 q hq).2) hl
        (fun i hi => X i (hrd i hi)) ?_ e2
      · rw [f2 q (fun hd => by have := hd1 q hd; have := (D.keep q c hq).1; omega)]
        exact hK q c (Or.inr hq)
      · have := hp j (Or.inr rfl)
        rw [List.forall₂_iff_get] at this ⊢
        refine ⟨this.1, fun i hi1 hi2 => (this.2 i hi1 hi2).kept (by omega) fun q hq => f2 q fun hd => ?_⟩
        have h4 := (D.par _ (List.get_mem _ ⟨i, hi1⟩) q hq).1
        have := hd1 q hd
        omega
  · intro hs o ho
    rcases List.mem_append.1 ho with ho | ho
    · exact A.fine hs o ho
    · exact D.fine hs o ho
  · rintro j n (h | h) hn
    · rw [hpar _ h]; exact A.pshape j n h hn
    · rw [h]; exact D.pshape j n h.symm hn
  · rintro j (h | rfl) i hi
    · exact Or.inl (A.close j h i hi)
    · exact Or.inl (hrd i hi)
  · rintro j i1 i2 dd (h | rfl)
    · rw [hlay j h]; exact A.cin j i1 i2 dd h
    · exact D.cin i1 i2 dd

theorem GBase.node {shape : List Nat} {ns : List (BNode T)} {b inp0 : Nat} {m0 : Mat} {w : World T}
    (S : GBase shape ns b inp0 m0 w) {k : Nat} {n : BNode T} (h : ns[k]? = some n) : NodeAt b n w (b + (k + 1)) := by
  have := S.lay k n h
  rwa [show b + 1 + k = b + (k + 1) by omega] at this

theorem GBase.plain {shape : List Nat} {ns : List (BNode T)} {b inp0 : Nat} {m0 : Mat} {w : World T}
    (S : GBase shape ns b inp0 m0 w) {k : Nat} (hk : k ≤ ns.length) :
    (w.layers (b + k)).pre = none ∨ ∃ s : LSpec T, (w.layers (b + k)).kind = s.kind := by
  cases k with
  | zero => exact Or.inl S.pre
  | succ k =>
    obtain ⟨n, hn⟩ : ∃ n, ns[k]? = some n := ⟨_, List.getElem?_eq_getElem hk⟩
    have N := S.node hn
    cases n with
    | layer s p => exact Or.inr ⟨s, N.kind⟩
    | concat i j d => exact Or.inl N.pre

theorem BrFF.flag {shape : List Nat} {ns : List (BNode T)} {b inp0 : Nat} {m0 : Mat} {V : Nat → Prop} {ops : List (Op T)}
    {K : Ptr → T → Prop} {w0 w : World T} {k : Nat} (A : BrFF shape ns b inp0 m0 V ops K w0 w)
    (hk : k ≤ ns.length) (hv : ¬ V k) : BrFF shape ns b inp0 m0 V ops K w0 (updL (b + k) (fun x => { x with ff := true }) w) := by
  obtain ⟨w', hw'⟩ : ∃ w', w' = updL (b + k) (fun x => { x with ff := true }) w := ⟨_, rfl⟩
  rw [← hw']
  have hs : w'.store = w.store := by rw [hw']; rfl
  have hlay : ∀ j, V j → w'.layers (b + j) = w.layers (b + j) := fun j hj => by
    rw [hw']; exact updL_ne _ _ (fun e => hv (by rwa [show j = k by omega] at hj))
  have g : Grow (fun l => b ≤ l ∧ l ≤ b + ns.length) (fun q => ∃ j, V j ∧ q = (w0.layers (b + j)).ref) [] w w' := by
    rw [hw']; exact grow_updL (L := fun l => b ≤ l ∧ l ≤ b + ns.length) ⟨by omega, by omega⟩ _ w
  have hout : ∀ j, V j → outMat w' (b + j) = outMat w (b + j) := fun j hj => by
    unfold outMat; rw [hlay j hj, hs]
  have hpar : ∀ j, V j → layerParams w' (b + j) = layerParams w (b + j) := fun j hj => by
    unfold layerParams; rw [hlay j hj, hs]
  refine ⟨A.sub, by simpa using A.grow.trans g, ?_, ?_, ?_, ?_, ?_, ?_, ?_, ?_, ?_, ?_, ?_, ?_, ?_, ?_, A.fine, fun j n h hn => by rw [hpar _ h]; exact A.pshape j n h hn, A.close, fun j i1 i2 dd h => by rw [hlay j h]; exact A.cin j i1 i2 dd h⟩
  · intro j hj hn
    obtain ⟨f, e⟩ := A.rest j hj hn
    by_cases h : j = k
    · subst h; rw [hw', updL_same, e]; exact ⟨true, rfl⟩
    · rw [hw', updL_ne _ _ (by omega), e]; exact ⟨f, rfl⟩
  · intro j h; rw [hlay j h]; exact A.seen j h
  · intro j h; rw [hlay j h]; exact A.refs j h
  · intro j h; rw [hlay j h]; exact A.dif j h
  · intro j h; rw [hlay j h, hout j h]
    obtain ⟨o, h1, h2⟩ := A.out j h
    exact ⟨o, h1, h2.grow g⟩
  · intro j h; rw [hout j h]; exact A.oshape j h
  · intro j h; rw [hout j h, hs]; exact A.cells j h
  · by_cases h : k = 0
    · subst h; rw [hw']
      show ((updL b (fun x => { x with ff := true }) w).layers b).input = _ ∧
        ((updL b (fun x => { x with ff := true }) w).layers b).weights = _ ∧ ((updL b (fun x => { x with ff := true }) w).layers b).bias = _
      rw [updL_same]; exact A.in0
    · rw [hw', updL_ne _ _ (by omega)]; exact A.in0
  · rw [hs]; exact A.dst
  · intro j h n hn
    rw [hlay j h] at hn
    obtain ⟨m, h1, h2⟩ := A.pready j h n hn
    exact ⟨m, h1.grow g, h2⟩
  · intro j h; rw [hpar j h, hs]; exact A.par j h
  · intro q c hK
    obtain ⟨h1, h2, h3, h4⟩ := A.keep q c hK
    rw [hs]
    exact ⟨h1, h2, h3, fun j hj => by rw [hpar j hj]; exact h4 j hj⟩
  · rw [hs]; exact A.kept
  · intro h h' x pv hn hK H hl hp he j hj
    rw [hout j hj]
    rw [hs] at hn
    exact A.run h h' x pv hn hK H hl (fun i hi => by rw [← hpar i hi]; exact hp i hi) he j hj

/-- the reference counter of a layer that is not built is as it was -/
theorem BrFF.unref {shape : List Nat} {ns : List (BNode T)} {b inp0 : Nat} {m0 : Mat} {R V : Nat → Prop} {ops : List (Op T)}
    {K : Ptr → T → Prop} {w0 w : World T} {k : Nat} (S : BrGAt shape ns b inp0 m0 R w0) (A : BrFF shape ns b inp0 m0 V ops K w0 w)
    (hk : k ≤ ns.length) (hv : ¬ V k) (hR : ∀ j, V j → R j) (hRk : R k) : 0 < (w.layers (b + k)).ref ∧
      (w.layers (b + k)).ref < w.store.heap.next ∧ eq (w.store.heap.val (w.layers (b + k)).ref) zero = false := by
  obtain ⟨r1, r2, r3⟩ := S.ref k hk hRk
  obtain ⟨f, e⟩ := A.rest k hk hv
  have := A.grow.next
  rw [e]
  refine ⟨r1, by show (w0.layers (b + k)).ref < _; omega, ?_⟩
  show eq (w.store.heap.val (w0.layers (b + k)).ref) zero = false
  rw [A.grow.val _ r2]
  · exact r3
  · rintro ⟨j, hj, e⟩
    exact hv (by rwa [S.inj k j hk (A.sub j hj) hRk (hR j hj) e])

theorem node_input {shape : List Nat} {ns : List (BNode T)} {b inp0 : Nat} {m0 : Mat} {R V : Nat → Prop} {ops : List (Op T)}
    {K : Ptr → T → Prop} {w0 w : World T} (S : BrGAt shape ns b inp0 m0 R w0) (A : BrFF shape ns b inp0 m0 V ops K w0 w)
    (hl : w.layers b = { w0.layers b with ff := true }) :
    wp True (LayerM.inputFF b) (fun _ w' => NodeDone shape ns b inp0 m0 V 0 [] (fun _ _ => False) w0 w w') w := by
  have hpos : 0 < w.store.heap.next := lt_of_lt_of_le S.pos A.grow.next
  unfold LayerM.inputFF
  refine wp_bind (wp_layer ?_)
  refine wp_bind (wp_deref (a := inp0) (by rw [hl]; exact S.input) ?_)
  refine wp_bind (wp_modify ?_)
  show wp True _ _ (updL b (fun x => { x with neta := some inp0, output := some inp0 }) w)
  obtain ⟨w1, hw1⟩ : ∃ w1, w1 = updL b (fun x => { x with neta := some inp0, output := some inp0 }) w := ⟨_, rfl⟩
  rw [← hw1]
  have m1 : Grow (· = b) (fun q => ∃ j, V j ∧ q = (w0.layers (b + j)).ref) [] w w1 := by
    rw [hw1]; exact grow_updL (L := (· = b)) rfl _ w
  refine wp_zeroDif (C := fun q => ∃ j, V j ∧ q = (w0.layers (b + j)).ref) (by rw [hw1]; exact hpos) fun w2 g2 l2 _ _ => ?_
  have G : Grow (· = b) (fun q => ∃ j, V j ∧ q = (w0.layers (b + j)).ref) [] w w2 := by simpa using m1.trans g2
  have el : w2.layers b = { w0.layers b with ff := true, neta := some inp0, output := some inp0, dif := some w1.nodeNext } := by
    rw [l2, hw1, updL_same, hl]
  have ro : Ready w2 inp0 m0 := (S.rin.grow A.grow).grow G
  have om : outMat w2 (b + 0) = m0 := outMat_eq (l := b) (by rw [el]) ro
  have lp : layerParams w2 (b + 0) = [] := by
    show layerParams w2 b = []
    unfold layerParams; rw [el]; simp only [S.wn.1]
  refine ⟨G, by show (w2.layers b).ff = true ∧ (w2.layers b).kind = _ ∧ (w2.layers b).pre = _; rw [el]; exact ⟨rfl, rfl, rfl⟩,
    Or.inl (by show (w2.layers b).ref = _; rw [el]; rfl), ⟨_, by show (w2.layers b).dif = _; rw [el]⟩,
    ⟨inp0, by show (w2.layers b).output = _; rw [el], by rw [om]; exact ro⟩, by rw [om, gshape_zero]; exact S.shape,
    fun q hq => Or.inl (by rwa [om] at hq), fun _ => by rw [el]; exact ⟨S.input, S.wn⟩, by simp [dsts], ?_, by rw [lp]; simp,
    fun _ _ h => h.elim, fun _ _ h => h.elim, ?_, by simp, fun j n h => by omega,
    fun _ _ _ h => by
      replace h : (w2.layers b).kind = _ := h
      rw [el] at h
      replace h : (w0.layers b).kind = _ := h
      rw [S.kind] at h; cases h⟩
  · intro n hn
    replace hn : (w2.layers b).weights = some n ∨ (w2.layers b).bias = some n := hn
    rw [el] at hn
    simp only [S.wn.1, S.wn.2] at hn
    simp at hn
  · intro h h' x pv _ _ H _ _ _ he
    simp only [exec, Out.ok.injEq, true_and] at he
    subst he
    rw [om, graphFn_zero]; exact H

theorem node_layer {shape : List Nat} {ns : List (BNode T)} {b inp0 : Nat} {m0 : Mat} {R V : Nat → Prop} {ops : List (Op T)}
    {K : Ptr → T → Prop} {w0 w : World T} {k f p : Nat} {s : LSpec T} (S : BrGAt shape ns b inp0 m0 R w0) (A : BrFF shape ns b inp0 m0 V ops K w0 w)
    (hg : FFGood s) (hfit : GraphFits ns shape) (hn : ns[k]? = some (.layer s p)) (hR : ∀ j, V j → R j) (hRk : R (k + 1)) (hVp : V p)
    (hv : ¬ V (k + 1)) (hl : w.layers (b + (k + 1)) = { w0.layers (b + (k + 1)) with ff := true }) (hf : 0 < f) :
    wp True (do
      let o ← LayerM.getOutputs f (b + p)
      Run.modify (b + (k + 1)) fun x => { x with input := o }
      LayerM.ffBody f (b + (k + 1)) s.kind (some (b + p)) : Run T Unit)
      (fun _ w' => ∃ ops2 K2, NodeDone shape ns b inp0 m0 V (k + 1) ops2 K2 w0 w w') w := by
  have hkN : k < ns.length := (List.getElem?_eq_some_iff.1 hn).1
  obtain ⟨hpk, hfits⟩ := hfit k _ hn
  replace hpk : p ≤ k := hpk p (by simp [BNode.reads])
  replace hfits : s.fits (gshape ns shape p) := hfits
  obtain ⟨l, hll⟩ : ∃ l, l = b + (k + 1) := ⟨_, rfl⟩
  have hs : NodeAt b (.layer s p) w0 l := by rw [hll]; exact S.node hn
  have hpl : b + p ≠ l := by omega
  obtain ⟨out, ho, ro⟩ := A.out p hVp
  obtain ⟨outM, hoM⟩ : ∃ m, m = outMat w (b + p) := ⟨_, rfl⟩
  rw [← hoM] at ro
  have hpn : (w.layers (b + p)).pre = none ∨ ∃ s' : LSpec T, (w.layers (b + p)).kind = s'.kind := by
    rw [(A.seen p hVp).2.1, (A.seen p hVp).2.2]; exact S.plain (A.sub p hVp)
  have hRf := A.unref S hkN hv hR hRk
  rw [← hll] at hl hRf ⊢
  refine wp_bind (wp_of_ok (delegated_ok hf hpn) ?_)
  refine wp_bind (wp_modify ?_)
  show wp True _ _ (updL l (fun x => { x with input := (w.layers (b + p)).output }) w)
  obtain ⟨w2, hw2⟩ : ∃ w2, w2 = updL l (fun x => { x with input := (w.layers (b + p)).output }) w := ⟨_, rfl⟩
  rw [← hw2]
  have g2 : Grow (· = l) (fun q => ∃ j, V j ∧ q = (w0.layers (b + j)).ref) [] w w2 := by rw [hw2]; exact grow_updL (L := (· = l)) rfl _ w
  have el2 : w2.layers l = { w0.layers l with ff := true, input := some out } := by rw [hw2, updL_same, hl, ho]
  have ep2 : w2.layers (b + p) = w.layers (b + p) := by rw [hw2]; exact updL_ne _ _ hpl
  have h12 : w2.store = w.store := by rw [hw2]; rfl
  have own20 : ∀ q, ownCell w2 l q ↔ ownCell w0 l q := fun q => by
    refine ownCell_congr (by rw [el2]) (by rw [el2]) (fun o hk ho => ?_) q
    obtain ⟨m, hm⟩ := hs.mat hk ho
    rw [h12, (hm.grow A.grow).mat, hm.mat]
  have hin : ∀ q, ownCell w0 l q → q ∉ outM.ops := by
    intro q hq hm
    rw [hll] at hq
    rw [hoM] at hm
    rcases A.cells p hVp q hm with h | h | ⟨j, hj, h⟩
    · exact S.own_in hkN hq h
    · have := S.own_lt hkN hq; omega
    · exact S.own_ne (A.sub j hj) hkN (fun e => hv (by rwa [e] at hj)) h hq
  obtain ⟨jp, hjp, ejp⟩ := A.refs p hVp
  obtain ⟨rp1, rp2, _⟩ := S.ref jp (A.sub jp hjp) (hR jp hjp)
  have n0 := A.grow.next
  have P : FFPre s w2 f l (b + p) out outM := by
    refine ⟨by rw [h12]; exact lt_of_lt_of_le S.pos A.grow.next, by rw [el2]; exact hs.kind, by rw [el2]; exact hs.act, by rw [el2],
      ro.grow g2, hpl, ⟨b + p, hpl, ⟨by rw [ep2]; exact hpn, Or.inl rfl⟩, by rw [ep2]; exact ho, fun h => absurd rfl h⟩, hf,
      ?_, by rw [ep2, ejp]; exact rp1, ⟨by rw [ep2, ejp, h12]; omega, ?_⟩, ?_, fun q hq => hin q ((own20 q).1 hq),
      by rw [hoM, A.oshape p hVp]; exact hfits, by rw [el2]; exact hs.wn⟩
    · have := hRf.1
      rw [hl] at this
      rw [el2]; exact this
    · have := hRf.2.1
      rw [hl] at this
      rw [el2, h12]; exact this
    · have hso : OwnOK s w0 l := hs.own
      cases s with
      | dense n a =>
        obtain ⟨o', m, h1, h2, h3⟩ := hso
        exact ⟨o', m, by rw [el2]; exact h1, (h2.grow A.grow).grow g2, h3⟩
      | _ => trivial
  refine wp_mono (hg w2 f l (b + p) out outM P) ?_
  rintro _ w' ⟨ops2, out2, outM2, K2, D, E⟩
  have om : outMat w' l = outM2 := outMat_eq D.output D.ready
  have hgs := gshape_succ (s := shape) hn (fun q hq => by simp only [BNode.reads, List.mem_singleton] at hq; subst hq; exact hpk)
  have hoS : outM.shape = gshape ns shape p := by rw [hoM]; exact A.oshape p hVp
  have hown : ∀ q, ownCell w2 l q → ownCell w0 (b + (k + 1)) q := fun q hq => by rw [← hll]; exact (own20 q).1 hq
  have gr : greads ns (k + 1) = [p] := by simp only [greads, hn, BNode.reads]
  have stg := D.stage
  rw [h12] at stg
  refine ⟨ops2, K2, ?_, ?_, ?_, ?_, ?_, ?_, ?_, ?_, ?_, ?_, ?_, ?_, D.kept, ?_, ?_, fun j n hj hn' => ?_, fun i1 i2 dd h => ?_⟩
  · rw [← hll]
    have := g2.trans (D.grow.weaken (C' := fun q => ∃ j, V j ∧ q = (w0.layers (b + j)).ref) (fun _ h => h)
      (fun q hq => ⟨jp, hjp, by rw [hq, ep2, ejp]⟩))
    simpa using this
  · rw [← hll, D.ff, D.kind, D.pre, el2]; exact ⟨rfl, rfl, rfl⟩
  · rw [← hll]
    rcases D.ref with e | e
    · left; rw [e, el2]
    · right; exact ⟨jp, hjp, by rw [e, ep2, ejp]⟩
  · rw [← hll]
    by_cases h : s = .softMax
    · have := E.difp h (b + p) ⟨by rw [ep2]; exact hpn, Or.inl rfl⟩
      rw [this, ep2]
      exact A.dif p hVp
    · obtain ⟨d, _, h1, _⟩ := E.difn h
      exact ⟨d, h1⟩
  · rw [← hll]; exact ⟨out2, D.output, by rw [om]; exact D.ready⟩
  · rw [← hll, om, D.shape, hgs, hoS]; rfl
  · intro q hq
    rw [← hll, om] at hq
    rcases stg.out q hq with h | h | h
    · refine Or.inr (Or.inl ⟨p, by rw [gr]; simp, by rw [← hoM]; exact h⟩)
    · exact Or.inr (Or.inr (Or.inl h))
    · exact Or.inr (Or.inr (Or.inr (hown q h)))
  · intro h; omega
  · intro q hq
    rcases stg.dst q hq with h | h
    · exact Or.inl h
    · exact Or.inr (hown q h)
  · rw [← hll]; exact D.pready
  · rw [← hll]
    intro m hm q hq
    exact stg.par _ (by simp) m hm q hq
  · intro q c hK
    rw [← hll]
    obtain ⟨h1, h2, h3, h4⟩ := stg.keep q c hK
    exact ⟨h1, h2, h3, fun m hm => h4 _ (by simp) m hm⟩
  · intro h h' x pv hn' hK H hlen hrd hp he
    rw [← hll] at hp
    rw [← hll, om]
    have X := stg.run h h' (graphFn ns p pv x) [gpar pv (k + 1)] hn' hK (by rw [hoM]; exact hrd p (by rw [gr]; simp))
      (.cons hp .nil) he
    rw [graphFn_succ hn (fun q hq => by simp only [BNode.reads, List.mem_singleton] at hq; subst hq; exact hpk) hlen]
    exact X
  · intro hsafe
    refine stg.fine ?_
    rw [hoS]
    exact hsafe _ (List.mem_of_getElem? hn)
  · obtain rfl : k = j := by omega
    rw [hn] at hn'
    cases hn'
    rw [← hll, D.pshape, hoS]; rfl
  · rw [← hll, D.kind, el2] at h
    replace h : (w0.layers l).kind = _ := h
    rw [hs.kind] at h
    cases s <;> cases h

theorem node_concat {shape : List Nat} {ns : List (BNode T)} {b inp0 : Nat} {m0 : Mat} {R V : Nat → Prop} {ops : List (Op T)}
    {K : Ptr → T → Prop} {w0 w : World T} {k f i j d : Nat} (S : BrGAt shape ns b inp0 m0 R w0) (A : BrFF shape ns b inp0 m0 V ops K w0 w)
    (hfit : GraphFits ns shape) (hn : ns[k]? = some (.concat i j d)) (hVi : V i) (hVj : V j)
    (hl : w.layers (b + (k + 1)) = { w0.layers (b + (k + 1)) with ff := true }) (hf : 0 < f) :
    wp True (LayerM.concatFF (b + i) (b + j) d f (b + (k + 1)))
      (fun _ w' => ∃ ops2 K2, NodeDone shape ns b inp0 m0 V (k + 1) ops2 K2 w0 w w') w := by
  have hkN : k < ns.length := (List.getElem?_eq_some_iff.1 hn).1
  obtain ⟨hrk, hfits⟩ := hfit k _ hn
  have hik : i ≤ k := hrk i (by simp [BNode.reads])
  have hjk : j ≤ k := hrk j (by simp [BNode.reads])
  replace hfits : d < (gshape ns shape i).length ∧ gshape ns shape j = (gshape ns shape i).set d ((gshape ns shape j).getD d 0) := hfits
  obtain ⟨l, hll⟩ : ∃ l, l = b + (k + 1) := ⟨_, rfl⟩
  have hs : NodeAt b (.concat i j d) w0 l := by rw [hll]; exact S.node hn
  have hil : b + i ≠ l := by omega
  have hjl : b + j ≠ l := by omega
  obtain ⟨o1, ho1, ro1⟩ := A.out i hVi
  obtain ⟨o2, ho2, ro2⟩ := A.out j hVj
  obtain ⟨m1, hm1⟩ : ∃ m, m = outMat w (b + i) := ⟨_, rfl⟩
  obtain ⟨m2, hm2⟩ : ∃ m, m = outMat w (b + j) := ⟨_, rfl⟩
  rw [← hm1] at ro1
  rw [← hm2] at ro2
  have s1 : m1.shape = gshape ns shape i := by rw [hm1]; exact A.oshape i hVi
  have s2 : m2.shape = gshape ns shape j := by rw [hm2]; exact A.oshape j hVj
  rw [← s1, ← s2] at hfits
  obtain ⟨d1, hd1⟩ := A.dif i hVi
  obtain ⟨d2, hd2⟩ := A.dif j hVj
  have hpi : (w.layers (b + i)).pre = none ∨ ∃ s' : LSpec T, (w.layers (b + i)).kind = s'.kind := by
    rw [(A.seen i hVi).2.1, (A.seen i hVi).2.2]; exact S.plain (A.sub i hVi)
  have hpj : (w.layers (b + j)).pre = none ∨ ∃ s' : LSpec T, (w.layers (b + j)).kind = s'.kind := by
    rw [(A.seen j hVj).2.1, (A.seen j hVj).2.2]; exact S.plain (A.sub j hVj)
  have hpos : 0 < w.store.heap.next := lt_of_lt_of_le S.pos A.grow.next
  obtain ⟨C, hC⟩ : ∃ C : Ptr → Prop, C = fun q => ∃ j, V j ∧ q = (w0.layers (b + j)).ref := ⟨_, rfl⟩
  rw [← hll] at hl ⊢
  unfold LayerM.concatFF
  refine wp_bind (wp_of_ok (delegated_ok hf hpi) ?_)
  refine wp_bind (wp_deref ho1 ?_)
  refine wp_bind (wp_of_ok (delegated_ok hf hpj) ?_)
  refine wp_bind (wp_deref ho2 ?_)
  refine wp_bind (wp_lazy (L := (· = l)) (C := C) fun w1 g1 l1 h1 x1 nd1 _ => ?_)
  refine wp_bind (wp_modify ?_)
  show wp True _ _ (updL l (fun x => { x with output := some w.nodeNext, input := some w.nodeNext }) w1)
  obtain ⟨w2, hw2⟩ : ∃ w2, w2 = updL l (fun x => { x with output := some w.nodeNext, input := some w.nodeNext }) w1 := ⟨_, rfl⟩
  rw [← hw2]
  have g2 : Grow (· = l) C [] w1 w2 := by rw [hw2]; exact grow_updL (L := (· = l)) rfl _ w1
  have G1 := g1.trans g2
  simp only [List.append_nil] at G1
  have h12 : w2.store = w1.store := by rw [hw2]; rfl
  have hl2 : ∀ n, n ≠ l → w2.layers n = w.layers n := fun n hn => by rw [hw2, updL_ne _ _ hn, l1]
  have p2 : Pend w2 w.nodeNext (m1.shape.modify d (· + m2.shape.getD d 0)) (fun val => (ofMat val m1).concat (ofMat val m2) d)
      (fun q => q ∈ m1.ops ∨ q ∈ m2.ops) True := by
    obtain ⟨M, hM⟩ : ∃ M : Nat → Mat, M = fun c => if c = o1 then m1 else m2 := ⟨_, rfl⟩
    have M1 : M o1 = m1 := by rw [hM]; simp
    have M2 : M o2 = m2 := by
      rw [hM]
      simp only
      split
      · next e => rw [← ro1.mat, ← ro2.mat, e]
      · rfl
    have := Pend.node (w := w2) (n := w.nodeNext) (k := .concat d o1 o2) (own := []) (sh := fun c => (M c).shape)
      (F := fun c val => ofMat val (M c)) (G := fun val => (ofMat val m1).concat (ofMat val m2) d)
      (S := fun q => q ∈ m1.ops ∨ q ∈ m2.ops) (safe := True) (by rw [h12]; exact nd1) (by rw [hw2]; show w.nodeNext < w1.nodeNext; omega)
      (fun c hc => ?_) (fun c hc => ?_) trivial (by simp) trivial (by
        show d < (M o1).shape.length ∧ (M o2).shape = (M o1).shape.set d ((M o2).shape.getD d 0)
        rw [M1, M2]; exact hfits) (by simp [Kind.straddles]) (fun val => ?_) (fun _ => ⟨trivial, trivial⟩)
    · have e : (Kind.concat d o1 o2 : Kind T).outShape [] (fun c => (M c).shape) = m1.shape.modify d (· + m2.shape.getD d 0) := by
        show (M o1).shape.modify d (· + (M o2).shape.getD d 0) = _
        rw [M1, M2]
      rw [e] at this
      exact this
    · simp only [Kind.kids, List.mem_cons, List.not_mem_nil, or_false] at hc
      rcases hc with rfl | rfl
      · exact ro1.lt
      · exact ro2.lt
    · simp only [Kind.kids, List.mem_cons, List.not_mem_nil, or_false] at hc
      rcases hc with rfl | rfl
      · rw [M1]; exact ((ro1.grow G1).pend True).mono (fun q hq => Or.inl hq) id
      · rw [M2]; exact ((ro2.grow G1).pend True).mono (fun q hq => Or.inr hq) id
    · simp only [Kind.den, M1, M2]
      refine ⟨((ofMat val m1).tab).concat ((ofMat val m2).tab) d, if_pos hfits, ?_⟩
      exact concat_tab (tab_tab _) (tab_tab _) hfits.1 hfits.2
  have q2 : 0 < w2.store.heap.next := lt_of_lt_of_le hpos G1.next
  refine wp_bind (wp_build (L := (· = l)) (C := C) p2 q2 fun w3 new m B => ?_)
  have hl3 : ∀ n, n ≠ l → w3.layers n = w.layers n := fun n hn => by rw [B.layers]; exact hl2 n hn
  refine wp_bind (wp_of_ok (delegated_ok (field := Layer.dif) hf (by rw [hl3 _ hil]; exact hpi)) ?_)
  refine wp_bind (wp_deref (by rw [hl3 _ hil]; exact hd1) ?_)
  refine wp_bind (wp_of_ok (delegated_ok (field := Layer.dif) hf (by rw [hl3 _ hjl]; exact hpj)) ?_)
  refine wp_bind (wp_deref (by rw [hl3 _ hjl]; exact hd2) ?_)
  refine wp_bind (wp_lazy (L := (· = l)) (C := C) fun w4 g4 l4 h4 x4 nd4 _ => ?_)
  refine wp_modify ?_
  show ∃ ops2 K2, NodeDone shape ns b inp0 m0 V (k + 1) ops2 K2 w0 w (updL l (fun x => { x with dif := some w3.nodeNext }) w4)
  obtain ⟨w5, hw5⟩ : ∃ w5, w5 = updL l (fun x => { x with dif := some w3.nodeNext }) w4 := ⟨_, rfl⟩
  rw [← hw5]
  have g5 : Grow (· = l) C [] w4 w5 := by rw [hw5]; exact grow_updL (L := (· = l)) rfl _ w4
  have G2 := g4.trans g5
  simp only [List.append_nil] at G2
  have G : Grow (· = l) C new w w5 := by simpa using G1.trans (B.grow.trans G2)
  have el : w5.layers l = { w0.layers l with ff := true, output := some w.nodeNext, input := some w.nodeNext, dif := some w3.nodeNext } := by
    rw [hw5, updL_same, l4, B.layers, hw2, updL_same, l1, hl]
  have ro : Ready w5 w.nodeNext m := B.ready.grow G2
  have om : outMat w5 l = m := outMat_eq (by rw [el]) ro
  have lp : layerParams w5 l = [] := by
    unfold layerParams; rw [el]; simp only [hs.wn.1]
  have hrd : ∀ p ∈ (BNode.concat i j d : BNode T).reads, p ≤ k := hrk
  have hgs := gshape_succ (s := shape) hn hrd
  have gr : greads ns (k + 1) = [i, j] := by simp only [greads, hn, BNode.reads]
  have nx : w2.store.heap.next = w.store.heap.next := by rw [h12, h1]
  have ny : w5.store.heap.next = w3.store.heap.next := by rw [hw5]; show w4.store.heap.next = _; rw [h4]
  refine ⟨new, Zeros w2.store.heap.next w3.store.heap.next new, ?_, ?_, ?_, ?_, ?_, ?_, ?_, ?_, ?_, ?_, ?_, ?_, ?_, ?_, ?_,
    fun j' n hj hn' => ?_, fun _ _ _ _ => by rw [← hll, el]⟩
  · rw [← hll, ← hC]; exact G
  · rw [← hll, el]; exact ⟨rfl, rfl, rfl⟩
  · left; rw [← hll, el]
  · rw [← hll, el]; exact ⟨_, rfl⟩
  · rw [← hll, el, om]; exact ⟨_, rfl, ro⟩
  · rw [← hll, om, B.shape, hgs, s1, s2]; rfl
  · intro q hq
    rw [← hll, om] at hq
    right
    rcases B.cells q hq with h | h | h
    · right; left; rw [ny]; omega
    · exact Or.inl ⟨i, by rw [gr]; simp, by rw [← hm1]; exact h⟩
    · exact Or.inl ⟨j, by rw [gr]; simp, by rw [← hm2]; exact h⟩
  · intro h; omega
  · intro q hq
    have := B.dst q hq
    left; rw [ny]; omega
  · rw [← hll, el]
    intro n hn
    simp only [hs.wn.1, hs.wn.2] at hn
    simp at hn
  · rw [← hll, lp]; simp
  · rintro q c ⟨h1, h2, h3, h4⟩
    rw [← hll, lp, ny]
    exact ⟨by omega, h2, h3, by simp⟩
  · rintro q c ⟨h1, h2, h3, rfl⟩
    have : w5.store.heap = w3.store.heap := by rw [hw5]; show w4.store.heap = _; rw [h4]
    rw [this]; exact B.zero q h1 h2
  · intro h h' x pv hn' hK H hlen hrds hp he
    rw [← hll, om]
    rw [ny] at hn'
    rw [graphFn_succ hn hrd hlen]
    have H1 := hrds i (by rw [gr]; simp)
    have H2 := hrds j (by rw [gr]; simp)
    rw [← hm1] at H1
    rw [← hm2] at H2
    refine (B.run h h' hn' (fun q h1 h2 h3 => hK q _ ⟨h1, h2, h3, rfl⟩) he).of_tab ?_
    exact concat_tab (ofMat_tab H1) (ofMat_tab H2) hfits.1 hfits.2
  · exact fun _ => B.fine trivial
  · obtain rfl : k = j' := by omega
    rw [hn] at hn'
    cases hn'
    rw [← hll, lp]; rfl

theorem ff_flag {f l : Nat} {w : World T} (h : (w.layers l).ff = true) : LayerM.feedForward (f + 1) l w = .ok () w := by
  have e : LayerM.feedForward (f + 1) l w = ((do
      if (w.layers l).ff then return () else
        let v ← Run.value (w.layers l).ref
        if eq v zero then return () else
          Run.modify l fun x => { x with ff := true }
          match (w.layers l).kind with
          | .input =>
            match (w.layers l).pre with
            | some p => LayerM.feedForward f p
            | none => LayerM.ffBody f l (w.layers l).kind (w.layers l).pre
          | .concat l1 l2 _ => do
            LayerM.feedForward f l1
            LayerM.feedForward f l2
            LayerM.ffBody f l (w.layers l).kind (w.layers l).pre
          | _ => do
            match (w.layers l).pre with
            | some p =>
              LayerM.feedForward f p
              let o ← LayerM.getOutputs f p
              Run.modify l fun x => { x with input := o }
            | none => pure ()
            LayerM.ffBody f l (w.layers l).kind (w.layers l).pre : Run T Unit)) w := rfl
  rw [e, h]
  rfl

theorem ff_unfold_concat {f l i j d : Nat} {w : World T} (hff : (w.layers l).ff = false)
    (hk : (w.layers l).kind = .concat i j d) (hr : 0 < (w.layers l).ref)
    (hv : eq (w.store.heap.val (w.layers l).ref) zero = false) :
    LayerM.feedForward (f + 1) l w = ((do
      LayerM.feedForward f i
      LayerM.feedForward f j
      LayerM.concatFF i j d f l : Run T Unit)) (updL l (fun x => { x with ff := true }) w) := by
  have e : LayerM.feedForward (f + 1) l w = ((do
      if (w.layers l).ff then return () else
        let v ← Run.value (w.layers l).ref
        if eq v zero then return () else
          Run.modify l fun x => { x with ff := true }
          match (w.layers l).kind with
          | .input =>
            match (w.layers l).pre with
            | some p => LayerM.feedForward f p
            | none => LayerM.ffBody f l (w.layers l).kind (w.layers l).pre
          | .concat l1 l2 _ => do
            LayerM.feedForward f l1
            LayerM.feedForward f l2
            LayerM.ffBody f l (w.layers l).kind (w.layers l).pre
          | _ => do
            match (w.layers l).pre with
            | some p =>
              LayerM.feedForward f p
              let o ← LayerM.getOutputs f p
              Run.modify l fun x => { x with input := o }
            | none => pure ()
            LayerM.ffBody f l (w.layers l).kind (w.layers l).pre : Run T Unit)) w := rfl
  rw [e, hff, hk]
  show (Run.value (w.layers l).ref w).bind _ = _
  rw [value_ok hr]
  show (if eq (w.store.heap.val (w.layers l).ref) zero then _ else _ : Run T Unit) w = _
  rw [hv]
  rfl

/-- what `feedForward` of layer number `k` does -/
def GGo (shape : List Nat) (ns : List (BNode T)) (b inp0 : Nat) (m0 : Mat) (R V : Nat → Prop) (k : Nat) (w0 w w' : World T) : Prop :=
  ∃ V' ops' K', BrFF shape ns b inp0 m0 V' ops' K' w0 w' ∧ V' k ∧ (∀ j, V j → V' j) ∧ (∀ j, V' j → V j ∨ j ≤ k) ∧ (∀ j, V' j → R j) ∧
    ∀ j, j ≤ ns.length → ¬ V' j → w'.layers (b + j) = w.layers (b + j)

/-- building the feed-forward part of a graph of layers -/
theorem ff_graph {shape : List Nat} {ns : List (BNode T)} {b inp0 : Nat} {m0 : Mat} {R : Nat → Prop} {w0 : World T}
    (S : BrGAt shape ns b inp0 m0 R w0) (hg : ∀ s : LSpec T, FFGood s) (hfit : GraphFits ns shape) :
    ∀ (f k : Nat) (w : World T) (V : Nat → Prop) (ops : List (Op T)) (K : Ptr → T → Prop), k < f → k ≤ ns.length → R k →
      BrFF shape ns b inp0 m0 V ops K w0 w → (∀ j, V j → R j) → (∀ j, j ≤ k → ¬ V j → (w.layers (b + j)).ff = false) →
      wp True (LayerM.feedForward f (b + k)) (fun _ w' => GGo shape ns b inp0 m0 R V k w0 w w') w := by
  intro f
  induction f with
  | zero => intro k w V ops K h; omega
  | succ f ih =>
    intro k w V ops K hkf hk hRk A hR hff
    by_cases hv : V k
    · exact wp_of_ok (ff_flag (A.seen k hv).1) ⟨V, ops, K, A, hv, fun _ h => h, fun _ h => Or.inl h, hR, fun _ _ _ => rfl⟩
    obtain ⟨r1, r2, r3⟩ := A.unref S hk hv hR hRk
    have hfk := hff k (le_refl _) hv
    obtain ⟨ff0, erest⟩ := A.rest k hk hv
    have A1 := A.flag hk hv
    obtain ⟨w1, hw1⟩ : ∃ w1, w1 = updL (b + k) (fun x => { x with ff := true }) w := ⟨_, rfl⟩
    have el1 : w1.layers (b + k) = { w0.layers (b + k) with ff := true } := by rw [hw1, updL_same, erest]
    have en1 : ∀ j, j ≠ k → w1.layers (b + j) = w.layers (b + j) := fun j hj => by rw [hw1]; exact updL_ne _ _ (by omega)
    rw [← hw1] at A1
    have finish : ∀ (V1 : Nat → Prop) (ops1 : List (Op T)) (K1 : Ptr → T → Prop) (wa w' : World T) (ops2 : List (Op T)) (K2 : Ptr → T → Prop),
        BrFF shape ns b inp0 m0 V1 ops1 K1 w0 wa → ¬ V1 k → (∀ i ∈ greads ns k, V1 i) → (∀ j, V1 j → R j) → (∀ j, V j → V1 j) →
        (∀ j, V1 j → V j ∨ j ≤ k) → (∀ j, j ≤ ns.length → ¬ V1 j → wa.layers (b + j) = w1.layers (b + j)) →
        NodeDone shape ns b inp0 m0 V1 k ops2 K2 w0 wa w' → GGo shape ns b inp0 m0 R V k w0 w w' := by
      intro V1 ops1 K1 wa w' ops2 K2 A' hv' hrd' hR' hm' hs' hu' D
      refine ⟨_, _, _, A'.step S hk hv' hrd' hR' D, Or.inr rfl, fun j hj => Or.inl (hm' j hj), ?_, ?_, ?_⟩
      · rintro j (h | rfl)
        · exact hs' j h
        · exact Or.inr (le_refl _)
      · rintro j (h | rfl)
        · exact hR' j h
        · exact hRk
      · intro j hj hn
        obtain ⟨n1, n2⟩ := not_or.1 hn
        rw [D.grow.layers (b + j) (by omega), hu' j hj n1, en1 j n2]
    cases k with
    | zero =>
      have e := ff_unfold_in (f := f) (l := b + 0) (w := w) hfk (by rw [erest]; exact S.kind) (by rw [erest]; exact S.pre) r1 r3
      rw [← hw1] at e
      refine (show wp True (LayerM.inputFF (b + 0)) (fun _ w' => GGo shape ns b inp0 m0 R V 0 w0 w w') w1 → _ from fun h => by
        unfold wp at h ⊢; rw [e]; exact h) ?_
      refine wp_mono (node_input S A1 el1) ?_
      intro _ w' D
      exact finish V ops K w1 w' _ _ A1 hv (by simp [greads]) hR (fun _ h => h) (fun _ h => Or.inl h) (fun _ _ _ => rfl) D
    | succ k =>
      obtain ⟨n, hn⟩ : ∃ n, ns[k]? = some n := ⟨_, List.getElem?_eq_getElem hk⟩
      have hs := S.node hn
      have hcl := S.close (k + 1) hk hRk
      have hrdk := (hfit k n hn).1
      cases n with
      | layer s p =>
        have gr : greads ns (k + 1) = [p] := by simp only [greads, hn, BNode.reads]
        rw [gr] at hcl
        have hpk : p ≤ k := hrdk p (by simp [BNode.reads])
        have e := ff_unfold (f := f) (l := b + (k + 1)) (p := b + p) (s := s) (w := w) hfk (by rw [erest]; exact hs.kind) (by rw [erest]; exact hs.pre) r1 r3
        rw [← hw1] at e
        refine (show wp True ((do
          LayerM.feedForward f (b + p)
          let o ← LayerM.getOutputs f (b + p)
          Run.modify (b + (k + 1)) fun x => { x with input := o }
          LayerM.ffBody f (b + (k + 1)) s.kind (some (b + p)) : Run T Unit)) (fun _ w' => GGo shape ns b inp0 m0 R V (k + 1) w0 w w') w1 → _ from fun h => by
          unfold wp at h ⊢; rw [e]; exact h) ?_
        refine wp_bind (wp_mono (ih p w1 V ops K (by omega) (by omega) (hcl p (by simp)) A1 hR ?_) ?_)
        · intro j hj hnv
          rw [en1 j (by omega)]; exact hff j (by omega) hnv
        · rintro _ wa ⟨V1, ops1, K1, Aa, hvp, hm1, hs1, hR1, hu1⟩
          have hv1 : ¬ V1 (k + 1) := fun h => by
            rcases hs1 _ h with h | h
            · exact hv h
            · omega
          refine wp_mono (node_layer S Aa (hg s) hfit hn hR1 hRk hvp hv1 (by rw [hu1 _ hk hv1, el1]) (by omega)) ?_
          rintro _ w' ⟨ops2, K2, D⟩
          exact finish V1 ops1 K1 wa w' _ _ Aa hv1 (by rw [gr]; simpa using hvp) hR1 hm1
            (fun j h => (hs1 j h).imp id fun h => by omega) hu1 D
      | concat i j d =>
        have gr : greads ns (k + 1) = [i, j] := by simp only [greads, hn, BNode.reads]
        rw [gr] at hcl
        have hik : i ≤ k := hrdk i (by simp [BNode.reads])
        have hjk : j ≤ k := hrdk j (by simp [BNode.reads])
        have e := ff_unfold_concat (f := f) (l := b + (k + 1)) (i := b + i) (j := b + j) (d := d) (w := w) hfk (by rw [erest]; exact hs.kind) r1 r3
        rw [← hw1] at e
        refine (show wp True ((do
          LayerM.feedForward f (b + i)
          LayerM.feedForward f (b + j)
          LayerM.concatFF (b + i) (b + j) d f (b + (k + 1)) : Run T Unit)) (fun _ w' => GGo shape ns b inp0 m0 R V (k + 1) w0 w w') w1 → _ from fun h => by
          unfold wp at h ⊢; rw [e]; exact h) ?_
        refine wp_bind (wp_mono (ih i w1 V ops K (by omega) (by omega) (hcl i (by simp)) A1 hR ?_) ?_)
        · intro j hj hnv
          rw [en1 j (by omega)]; exact hff j (by omega) hnv
        rintro _ wa ⟨V1, ops1, K1, Aa, hvi, hm1, hs1, hR1, hu1⟩
        refine wp_bind (wp_mono (ih j wa V1 ops1 K1 (by omega) (by omega) (hcl j (by simp)) Aa hR1 ?_) ?_)
        · intro j' hj' hnv
          rw [hu1 j' (by omega) hnv, en1 j' (by omega)]
          exact hff j' (by omega) fun h => hnv (hm1 j' h)
        rintro _ wb ⟨V2, ops2, K2, Ab, hvj, hm2, hs2, hR2, hu2⟩
        have hv2 : ¬ V2 (k + 1) := fun h => by
          rcases hs2 _ h with h | h
          · rcases hs1 _ h with h | h
            · exact hv h
            · omega
          · omega
        have hu : ∀ j', j' ≤ ns.length → ¬ V2 j' → wb.layers (b + j') = w1.layers (b + j') := fun j' hj' hnv => by
          rw [hu2 j' hj' hnv, hu1 j' hj' fun h => hnv (hm2 j' h)]
        refine wp_mono (node_concat S Ab hfit hn (hm2 i hvi) hvj (by rw [hu _ hk hv2, el1]) (by omega)) ?_
        rintro _ w' ⟨ops3, K3, D⟩
        refine finish V2 ops2 K2 wb w' _ _ Ab hv2 ?_ hR2 (fun j h => hm2 j (hm1 j h)) (fun j' h => ?_) hu D
        · rw [gr]
          intro x hx
          simp only [List.mem_cons, List.not_mem_nil, or_false] at hx
          rcases hx with rfl | rfl
          · exact hm2 _ hvi
          · exact hvj
        · rcases hs2 j' h with h | h
          · rcases hs1 j' h with h | h
            · exact Or.inl h
            · right; omega
          · right; omega

end Godeep
