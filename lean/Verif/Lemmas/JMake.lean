import Verif.Lemmas.JCompile
/-
  Making the models that `FromModels` joins, and connecting them.
-/
set_option linter.unusedSectionVars false

namespace Godeep
open Spec GoNum

variable {T : Type} [GoNum T]

/-- model `m` with the input layer `b` and the layers `ls` has not been compiled; its input layer is connected to `p` -/
structure Todo (p : Option Nat) (ls : List (LSpec T)) (m b : Nat) (w : World T) : Prop where
  kind : (w.layers b).kind = .input
  pre : (w.layers b).pre = p
  ff : (w.layers b).ff = false
  wn : (w.layers b).weights = none ∧ (w.layers b).bias = none
  lay : ∀ k s, ls[k]? = some s → LayerAt s w (b + 1 + k)
  new : ∀ k ≤ ls.length, (w.layers (b + k)).ref = 0 ∧ (w.layers (b + k)).build = false
  net : (w.nets m).first = some b ∧ (w.nets m).last = some (b + ls.length) ∧ (w.nets m).ff = none

theorem Todo.at {p : Option Nat} {ls : List (LSpec T)} {m b : Nat} {w : World T}
    (S : Todo p ls m b w) {k : Nat} (hk : k < ls.length) : LayerAt ls[k] w (b + 1 + k) := S.lay k _ (by simp [hk])

theorem Todo.keep {p : Option Nat} {ls : List (LSpec T)} {m b : Nat} {w w' : World T} (S : Todo p ls m b w) (g : Ext w w')
    (hl : ∀ l, b ≤ l → l ≤ b + ls.length → w'.layers l = w.layers l) (hn : w'.nets m = w.nets m) : Todo p ls m b w' := by
  have e := hl b (le_refl _) (by omega)
  refine ⟨by rw [e]; exact S.kind, by rw [e]; exact S.pre, by rw [e]; exact S.ff, by rw [e]; exact S.wn, fun k s hs => ?_, fun k hk => ?_,
    by rw [hn]; exact S.net⟩
  · have := (List.getElem?_eq_some_iff.1 hs).1
    exact (S.lay k s hs).ext g (bb := _) (r := _) (i := _) (by rw [hl _ (by omega) (by omega)])
  · rw [hl _ (by omega) (by omega)]; exact S.new k hk

/-- the models `todo`, with consecutive layers from `b` on -/
def Todos (c : Bool) : List (List (LSpec T) × Nat) → Nat → World T → Prop
  | [], b, w => w.layerNext = b
  | (ls, m) :: rest, b, w => Todo (if c then some (b - 1) else none) ls m b w ∧ Todos c rest (b + ls.length + 1) w

theorem Todos.next {c : Bool} {todo : List (List (LSpec T) × Nat)} {b : Nat} {w : World T} (h : Todos c todo b w) : b ≤ w.layerNext := by
  induction todo generalizing b with
  | nil => exact le_of_eq (Eq.symm h)
  | cons p rest ih => have := ih h.2; omega

theorem Todos.keep {c : Bool} {todo : List (List (LSpec T) × Nat)} {b : Nat} {w w' : World T} (h : Todos c todo b w) (g : Ext w w')
    (hl : ∀ l, b ≤ l → l < w.layerNext → w'.layers l = w.layers l) (hn : ∀ p ∈ todo, w'.nets p.2 = w.nets p.2) (hx : w'.layerNext = w.layerNext) :
    Todos c todo b w' := by
  induction todo generalizing b with
  | nil => rw [Todos, hx]; exact h
  | cons p rest ih =>
    have := Todos.next h.2
    exact ⟨h.1.keep g (fun l h1 h2 => hl l h1 (by omega)) (hn p (by simp)), ih h.2 (fun l h1 h2 => hl l (by omega) h2) fun q hq => hn q (by simp [hq])⟩

theorem input_own {w : World T} {l : Nat} (h : (w.layers l).kind = .input) (q : Ptr) : ¬ ownCell w l q := by
  unfold ownCell
  rw [h]
  simp

/-- the output tensors of their dense layers stay the same -/
theorem Todos.own {c : Bool} {todo : List (List (LSpec T) × Nat)} {b : Nat} {w w' : World T} (h : Todos c todo b w) (g : Ext w w')
    (hl : ∀ l, b ≤ l → l < w.layerNext → w'.layers l = w.layers l) {l : Nat} (h1 : b ≤ l) (h2 : l < w.layerNext) (q : Ptr) :
    ownCell w' l q ↔ ownCell w l q := by
  induction todo generalizing b with
  | nil => rw [Todos] at h; omega
  | cons p rest ih =>
    rcases Nat.lt_or_ge l (b + p.1.length + 1) with h3 | h3
    · rcases Nat.eq_or_lt_of_le h1 with h4 | h4
      · subst h4
        have e := hl b (le_refl _) h2
        have k1 := input_own h.1.kind q
        have k2 := input_own (w := w') (l := b) (by rw [e]; exact h.1.kind) q
        exact ⟨fun h => absurd h k2, fun h => absurd h k1⟩
      · have hk : l - b - 1 < p.1.length := by omega
        have := h.1.at hk
        rw [show b + 1 + (l - b - 1) = l by omega] at this
        exact this.own_ext g (bb := _) (r := _) (i := _) (by rw [hl l h1 h2]) q
    · exact ih h.2 (fun l h1 h2 => hl l (by omega) h2) h3

theorem Todos.own_lt {c : Bool} {todo : List (List (LSpec T) × Nat)} {b : Nat} {w : World T} (h : Todos c todo b w) {l : Nat} (h1 : b ≤ l)
    (h2 : l < w.layerNext) {q : Ptr} (hq : ownCell w l q) : q < w.store.heap.next := by
  induction todo generalizing b with
  | nil => rw [Todos] at h; omega
  | cons p rest ih =>
    rcases Nat.lt_or_ge l (b + p.1.length + 1) with h3 | h3
    · rcases Nat.eq_or_lt_of_le h1 with h4 | h4
      · subst h4
        exact absurd hq (input_own h.1.kind q)
      · have hk : l - b - 1 < p.1.length := by omega
        have := h.1.at hk
        rw [show b + 1 + (l - b - 1) = l by omega] at this
        exact this.own_lt hq
    · exact ih h.2 h3

/-- the output tensors of the dense layers from `b` on are apart, and all their scalars are in `P` -/
def Sep (b : Nat) (P : Ptr → Prop) (w : World T) : Prop :=
  ∀ l, b ≤ l → l < w.layerNext → ∀ q, ownCell w l q → P q ∧ ∀ l', b ≤ l' → l' < l → ¬ ownCell w l' q

theorem Sep.keep {c : Bool} {todo : List (List (LSpec T) × Nat)} {b : Nat} {P : Ptr → Prop} {w w' : World T} (s : Sep b P w) (h : Todos c todo b w)
    (g : Ext w w') (hl : ∀ l, b ≤ l → l < w.layerNext → w'.layers l = w.layers l) (hx : w'.layerNext = w.layerNext) : Sep b P w' := by
  intro l h1 h2 q hq
  rw [hx] at h2
  obtain ⟨a1, a2⟩ := s l h1 h2 q ((h.own g hl h1 h2 q).1 hq)
  exact ⟨a1, fun l' h3 h4 h5 => a2 l' h3 h4 ((h.own g hl h3 (by omega) q).1 h5)⟩

theorem Sep.mono {b b' : Nat} {P P' : Ptr → Prop} {w : World T} (s : Sep b P w) (hb : b ≤ b')
    (hP : ∀ l, b' ≤ l → l < w.layerNext → ∀ q, ownCell w l q → P q → P' q) : Sep b' P' w := by
  intro l h1 h2 q hq
  obtain ⟨a1, a2⟩ := s l (by omega) h2 q hq
  exact ⟨hP l h1 h2 q hq a1, fun l' h3 h4 => a2 l' (by omega) h4⟩

theorem SeqNew.todo {shape : List Nat} {ls : List (LSpec T)} {m b inp0 : Nat} {m0 : Mat} {w : World T}
    (S : SeqNew shape ls m b inp0 m0 w) : Todo none ls m b w :=
  ⟨S.kind, S.pre, S.ff, S.wn, S.lay, S.made.new, by rw [S.net]; exact ⟨rfl, rfl, rfl⟩⟩

/-- `sequential` for each -/
theorem makes_ok (nets : List (List Nat × List (LSpec T))) {w : World T} (hpos : 0 < w.store.heap.next) :
    wp True (Run.collect nets fun p => sequential p.1 p.2) (fun ms w' => Apart w w' ∧ (ms.length = nets.length ∧ ms.Nodup ∧ ∀ m ∈ ms, w.netNext ≤ m ∧ m < w'.netNext) ∧
      Todos false ((nets.map Prod.snd).zip ms) w.layerNext w' ∧ Sep w.layerNext (w.store.heap.next ≤ ·) w') w := by
  induction nets generalizing w with
  | nil =>
    refine wp_pure ⟨⟨Ext.refl _, fun _ _ => rfl, fun _ _ => rfl, fun _ _ => rfl, le_refl _, le_refl _⟩, ⟨rfl, List.nodup_nil, by simp⟩, ?_, ?_⟩
    · rfl
    · intro l h1 h2; omega
  | cons p nets ih =>
    refine wp_bind' (wp_mono (sequential_ok p.1 p.2 hpos) ?_)
    rintro m w1 ⟨rfl, A, inp0, m0, S, low, own⟩
    refine wp_bind' (wp_mono (wp_eq (ih (lt_of_lt_of_le hpos A.ext.next))) ?_)
    rintro ms w2 ⟨⟨A2, ⟨m1, m2, m3⟩, H, s⟩, -⟩
    have hx := S.next
    have hl : ∀ l, w.layerNext ≤ l → l ≤ w.layerNext + p.2.length → w2.layers l = w1.layers l := fun l h1 h2 => A2.layers l (by omega)
    refine wp_pure ⟨A.trans A2, ?_, ?_, ?_⟩
    · have hm := S.mlt
      have hm2 := A2.netNext
      refine ⟨by simp [m1], List.nodup_cons.2 ⟨fun h => ?_, m2⟩, fun m h => ?_⟩
      · have := (m3 _ h).1; omega
      · rcases List.mem_cons.1 h with rfl | h
        · exact ⟨le_refl _, by omega⟩
        · have := m3 _ h; omega
    · refine ⟨S.todo.keep A2.ext hl (A2.nets _ S.mlt), ?_⟩
      rw [hx] at H
      exact H
    · intro l h1 h2 q hq
      rcases Nat.lt_or_ge l (w.layerNext + p.2.length + 1) with h3 | h3
      · rcases Nat.eq_or_lt_of_le h1 with h4 | h4
        · subst h4
          exact absurd hq (input_own (by rw [A2.layers _ (by omega)]; exact S.kind) q)
        · have hk : l - w.layerNext - 1 < p.2.length := by omega
          have e : ∀ j, (hj : j < p.2.length) → ownCell w2 (w.layerNext + 1 + j) q → ownCell w1 (w.layerNext + 1 + j) q := fun j hj h =>
            ((S.toSeqBase.at hj).own_ext A2.ext (bb := _) (r := _) (i := _) (by rw [A2.layers _ (by omega)]) q).1 h
          rw [show l = w.layerNext + 1 + (l - w.layerNext - 1) by omega] at hq
          have hq1 := e _ hk hq
          refine ⟨own _ hk q hq1, fun l' h5 h6 h7 => ?_⟩
          rcases Nat.eq_or_lt_of_le h5 with h8 | h8
          · subst h8
            exact absurd h7 (input_own (by rw [A2.layers _ (by omega)]; exact S.kind) q)
          · rw [show l' = w.layerNext + 1 + (l' - w.layerNext - 1) by omega] at h7
            exact (S.dis _ hk q hq1).2 _ (by omega) (e _ (by omega) h7)
      · obtain ⟨a1, a2⟩ := s l (by omega) h2 q hq
        refine ⟨le_trans A.ext.next a1, fun l' h5 h6 h7 => ?_⟩
        rcases Nat.lt_or_ge l' (w.layerNext + p.2.length + 1) with h8 | h8
        · rcases Nat.eq_or_lt_of_le h5 with h9 | h9
          · subst h9
            exact absurd h7 (input_own (by rw [A2.layers _ (by omega)]; exact S.kind) q)
          · have hk : l' - w.layerNext - 1 < p.2.length := by omega
            have := S.toSeqBase.at hk
            rw [show w.layerNext + 1 + (l' - w.layerNext - 1) = l' by omega] at this
            have := this.own_lt ((this.own_ext A2.ext (bb := _) (r := _) (i := _) (by rw [A2.layers _ (by omega)]) q).1 h7)
            omega
        · exact a2 l' (by omega) h6 h7

/-! ### connecting them -/

/-- the body of the first loop of `FromModels` -/
def connect (a b : Nat) : Run T Unit := do
  let xa ← Run.net a
  let xb ← Run.net b
  let fb ← Run.deref xb.first
  let y ← Run.layer fb
  if y.pre = xa.last then pure ()
  else
    Run.modify fb fun y => { y with pre := xa.last }

def connectAll : Nat → List Nat → Run T Unit
  | _, [] => pure ()
  | a, b :: rest => do
    connect a b
    connectAll b rest

theorem connectAll_eq {models : List Nat} (l : List Nat) (a : Nat) (rest : List Nat) (hm : models = l ++ a :: rest) :
    Run.each (List.range' (l.length + 1) rest.length) (fun i => (do
      let a ← Run.lift (Res.index models (i - 1))
      let b ← Run.lift (Res.index models i)
      let xa ← Run.net a
      let xb ← Run.net b
      let fb ← Run.deref xb.first
      let y ← Run.layer fb
      if y.pre = xa.last then pure ()
      else
        Run.modify fb fun y => { y with pre := xa.last } : Run T Unit)) = connectAll a rest := by
  induction rest generalizing l a with
  | nil => rfl
  | cons b rest ih =>
    rw [List.length_cons, List.range'_succ]
    funext w
    have e1 : Res.index models (l.length + 1 - 1) = .ok a := by rw [hm]; simp [Res.index]
    have e2 : Res.index models (l.length + 1) = .ok b := by
      rw [hm]; simp [Res.index]
    have h := ih (l ++ [a]) b (by rw [hm]; simp)
    simp only [List.length_append, List.length_singleton] at h
    show Out.bind ((Run.lift (Res.index models (l.length + 1 - 1)) w).bind _) _ = _
    rw [e1]
    show Out.bind ((Run.lift (Res.index models (l.length + 1)) w).bind _) _ = _
    rw [e2, h]
    rfl

/-- `w'` is `w` with other connections of the layers from `b` on -/
structure Linked (b : Nat) (w w' : World T) : Prop where
  store : w'.store = w.store
  nodeNext : w'.nodeNext = w.nodeNext
  nets : w'.nets = w.nets
  netNext : w'.netNext = w.netNext
  layerNext : w'.layerNext = w.layerNext
  layers : ∀ l, ∃ p, w'.layers l = { w.layers l with pre := p }
  old : ∀ l, l < b → w'.layers l = w.layers l

theorem Linked.ext {b : Nat} {w w' : World T} (h : Linked b w w') : Ext w w' :=
  ext_of_eq (by rw [h.store]) (by rw [h.nodeNext]) (by rw [h.store])

theorem connect_ok {a b k m : Nat} {ls : List (LSpec T)} {w : World T} (ha : (w.nets a).last = some k) (S : Todo none ls m b w) :
    connect a m w = .ok () (updL b (fun y => { y with pre := some k }) w) := by
  unfold connect
  show (Run.deref (w.nets m).first w).bind _ = _
  rw [S.net.1]
  show (if (w.layers b).pre = (w.nets a).last then _ else _ : Run T Unit) w = _
  rw [S.pre, ha, if_neg (by simp)]
  rfl

theorem connectAll_ok {a b : Nat} {todo : List (List (LSpec T) × Nat)} {w : World T} (hb : 0 < b) (ha : (w.nets a).last = some (b - 1))
    (S : Todos false todo b w) (hnd : (todo.map Prod.snd).Nodup) :
    ∃ w', connectAll a (todo.map Prod.snd) w = .ok () w' ∧ Linked b w w' ∧ Todos true todo b w' := by
  induction todo generalizing a b w with
  | nil => exact ⟨w, rfl, ⟨rfl, rfl, rfl, rfl, rfl, fun l => ⟨_, rfl⟩, fun _ _ => rfl⟩, S⟩
  | cons p rest ih =>
    obtain ⟨S1, S2⟩ := S
    obtain ⟨ls, m⟩ := p
    have hx := Todos.next S2
    simp only at hx
    set w1 := updL b (fun y => { y with pre := some (b - 1) }) w with hw1
    have g1 : Ext w w1 := ext_of_eq (le_refl _) rfl rfl
    have hn : ∀ l, l ≠ b → w1.layers l = w.layers l := fun l hl => updL_ne _ _ hl
    have T2 : Todos false rest (b + ls.length + 1) w1 := S2.keep g1 (fun l h1 _ => hn l (by omega)) (fun _ _ => rfl) rfl
    have T1 : Todo (some (b - 1)) ls m b w1 := by
      have e : w1.layers b = { w.layers b with pre := some (b - 1) } := by rw [hw1, updL_same]
      refine ⟨by rw [e]; exact S1.kind, by rw [e], by rw [e]; exact S1.ff, by rw [e]; exact S1.wn, fun k s hs => ?_, fun k hk => ?_, S1.net⟩
      · exact (S1.lay k s hs).ext g1 (bb := _) (r := _) (i := _) (by rw [hn _ (by omega)])
      · rcases Nat.eq_zero_or_pos k with h | h
        · subst h
          rw [Nat.add_zero, e]
          exact S1.new 0 (Nat.zero_le _)
        · rw [hn _ (by omega)]; exact S1.new k hk
    obtain ⟨w', e', L, T'⟩ := ih (a := m) (b := b + ls.length + 1) (w := w1) (by omega) (by
      rw [show b + ls.length + 1 - 1 = b + ls.length by omega]; exact S1.net.2.1) T2 (List.nodup_cons.1 hnd).2
    refine ⟨w', ?_, ⟨L.store, L.nodeNext, L.nets, L.netNext, L.layerNext, fun l => ?_, fun l hl => ?_⟩, ?_, T'⟩
    · show (connect a m w).bind _ = _
      rw [connect_ok ha S1]
      exact e'
    · obtain ⟨p, hp⟩ := L.layers l
      by_cases h : l = b
      · subst h
        exact ⟨p, by rw [hp, hw1, updL_same]⟩
      · exact ⟨p, by rw [hp, hn l h]⟩
    · rw [L.old l (by omega), hn l (by omega)]
    · exact T1.keep L.ext (fun l h1 h2 => L.old l (by omega)) (by rw [L.nets])

end Godeep
