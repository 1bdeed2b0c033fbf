import Verif.Lemmas.Sees
import Verif.Lemmas.Compile
/-
  Models made of blocks have the same layers as models without blocks.
-/
set_option linter.unusedSectionVars false

namespace Godeep
open Spec GoNum

variable {T : Type} [GoNum T]

/-- a new layer object, and new tensors -/
def addL (x : Layer T) (st : Store T) (nn : Nat) (w : World T) : World T :=
  { w with store := st, nodeNext := nn, layers := fun k => if k = w.layerNext then x else w.layers k, layerNext := w.layerNext + 1 }

theorem zeros_form {sh : List Nat} {v v1 : World T} {o : Nat} (e : Run.zeros sh v = .ok o v1) :
    ∃ st nn, v1 = { v with store := st, nodeNext := nn } ∧ ∀ u : World T, u.store = v.store → u.nodeNext = v.nodeNext →
      Run.zeros sh u = .ok o { u with store := st, nodeNext := nn } := by
  have f : ∀ w : World T, Run.zeros sh w = match Mat.newZeros sh w.store.heap with
      | .ok mm h => .ok w.nodeNext { w with store := ({ w.store with heap := h } : Store T).setNode w.nodeNext ⟨.leaf, mm, false⟩, nodeNext := w.nodeNext + 1 }
      | .err e h => .err e { w with store := { w.store with heap := h } }
      | .panic => .panic := fun w => by
    show (Run.heap (Mat.newZeros sh) w).bind _ = _
    unfold Run.heap
    cases Mat.newZeros sh w.store.heap <;> rfl
  rw [f] at e
  cases e2 : Mat.newZeros sh v.store.heap with
  | ok mm h =>
    rw [e2] at e
    cases e
    refine ⟨_, _, rfl, fun u h1 h2 => ?_⟩
    rw [f, h1, h2, e2]
  | err _ _ => rw [e2] at e; cases e
  | panic => rw [e2] at e; cases e

theorem spec_form (s : LSpec T) {v v1 : World T} {l : Nat} (e : s.create v = .ok l v1) :
    l = v.layerNext ∧ ∃ x st nn, v1 = addL x st nn v ∧ x.pre = none ∧ ∀ u : World T, u.store = v.store → u.nodeNext = v.nodeNext →
      u.layerNext = v.layerNext → s.create u = .ok l (addL x st nn u) := by
  have plain : ∀ (s : LSpec T) (x : Layer T), s.create = Run.newLayer x → x.pre = none → s.create v = .ok l v1 →
      l = v.layerNext ∧ ∃ x st nn, v1 = addL x st nn v ∧ x.pre = none ∧ ∀ u : World T, u.store = v.store → u.nodeNext = v.nodeNext →
      u.layerNext = v.layerNext → s.create u = .ok l (addL x st nn u) := fun s x hc hx e => by
    rw [hc] at e ⊢
    cases e
    refine ⟨rfl, x, v.store, v.nodeNext, rfl, hx, fun u h1 h2 h3 => ?_⟩
    rw [← h1, ← h2, ← h3]
    rfl
  cases s with
  | dense n a =>
    obtain ⟨o, w1, e1, e2⟩ := out_bind_ok (show (Run.zeros [n] v).bind _ = _ from e)
    obtain ⟨st, nn, rfl, h⟩ := zeros_form e1
    cases e2
    refine ⟨rfl, { LayerM.blank .dense with output := some o, act := a, trainable := true }, st, nn, rfl, rfl, fun u h1 h2 h3 => ?_⟩
    show (Run.zeros [n] u).bind _ = _
    rw [h u h1 h2]
    show Out.ok u.layerNext (addL _ st nn u) = _
    rw [h3]
  | flatten => exact plain _ _ rfl rfl e
  | softMax => exact plain _ _ rfl rfl e
  | norm => exact plain _ _ rfl rfl e
  | eNorm => exact plain _ _ rfl rfl e
  | sub d f t => exact plain _ _ rfl rfl e
  | conv nf kw kh sx sy act => exact plain _ _ rfl rfl e
  | deconv nf kw kh sx sy act => exact plain _ _ rfl rfl e
  | maxPool sx sy => exact plain _ _ rfl rfl e
  | upSampling k => exact plain _ _ rfl rfl e

theorem create_form (s : Piece T) {v v1 : World T} {l : Nat} (e : s.create v = .ok l v1) :
    l = v.layerNext ∧ ∃ x st nn, v1 = addL x st nn v ∧ x.pre = none ∧ ∀ u : World T, u.store = v.store → u.nodeNext = v.nodeNext →
      u.layerNext = v.layerNext → s.create u = .ok l (addL x st nn u) := by
  cases s with
  | hidden s => exact spec_form s e
  | input sh =>
    obtain ⟨o, w1, e1, e2⟩ := out_bind_ok (show (Run.zeros sh v).bind _ = _ from e)
    obtain ⟨st, nn, rfl, h⟩ := zeros_form e1
    obtain ⟨o2, w2, e3, e4⟩ := out_bind_ok (show (Run.zeros sh _).bind _ = _ from e2)
    obtain ⟨st2, nn2, rfl, h'⟩ := zeros_form e3
    cases e4
    refine ⟨rfl, { LayerM.blank .input with input := some o, dif := some o2, act := .linear }, st2, nn2, rfl, rfl, fun u h1 h2 h3 => ?_⟩
    show (Run.zeros sh u).bind _ = _
    rw [h u h1 h2]
    show (Run.zeros sh { u with store := st, nodeNext := nn }).bind _ = _
    rw [h' { u with store := st, nodeNext := nn } rfl rfl]
    show Out.ok u.layerNext (addL _ st2 nn2 u) = _
    rw [h3]

/-- the program that pushes layers one by one -/
def flat (m : Nat) (ls : List (Piece T)) : Run T Unit := Run.each ls fun s => do
  let l ← s.create
  NetM.pushLayer m l

theorem flat_append {m : Nat} {a b : List (Piece T)} {v v' : World T} (e : flat m (a ++ b) v = .ok () v') :
    ∃ v1, flat m a v = .ok () v1 ∧ flat m b v1 = .ok () v' := by
  induction a generalizing v with
  | nil => exact ⟨v, rfl, e⟩
  | cons s a ih =>
    obtain ⟨_, v1, e1, e2⟩ := out_bind_ok (show ((do let l ← s.create; NetM.pushLayer m l : Run T Unit) v).bind _ = _ from e)
    obtain ⟨v2, e3, e4⟩ := ih e2
    refine ⟨v2, ?_, e4⟩
    show ((do let l ← s.create; NetM.pushLayer m l : Run T Unit) v).bind _ = _
    rw [e1]
    exact e3

theorem flat_cons {m p : Nat} {s : Piece T} {ls : List (Piece T)} {v v' : World T} (h1 : (v.nets m).first ≠ none)
    (h2 : (v.nets m).last = some p) (e : flat m (s :: ls) v = .ok () v') :
    ∃ x st nn, x.pre = none ∧ (∀ u : World T, u.store = v.store → u.nodeNext = v.nodeNext → u.layerNext = v.layerNext →
      s.create u = .ok v.layerNext (addL x st nn u)) ∧
      flat m ls (updN m (fun y => { y with last := some v.layerNext }) (addL { x with pre := some p } st nn v)) = .ok () v' := by
  obtain ⟨_, v1, e1, e2⟩ := out_bind_ok (show ((do let l ← s.create; NetM.pushLayer m l : Run T Unit) v).bind _ = _ from e)
  obtain ⟨l, v2, e3, e4⟩ := out_bind_ok (show (s.create v).bind _ = _ from e1)
  obtain ⟨rfl, x, st, nn, rfl, hx, h⟩ := create_form s e3
  obtain ⟨f, hf⟩ := Option.ne_none_iff_exists'.1 h1
  rw [push_next (w := addL x st nn v) (f := f) (p := p) hf h2] at e4
  refine ⟨x, st, nn, hx, h, ?_⟩
  have ew : updL v.layerNext (fun x => { x with pre := some p }) (addL x st nn v) = addL { x with pre := some p } st nn v := by
    unfold updL addL
    congr 1
    funext k
    by_cases hk : k = v.layerNext
    · simp [hk]
    · simp [hk]
  rw [ew] at e4
  cases e4
  exact e2

/-- The states agree but for models, and the layers in `E` have no previous layer in `u` yet. -/
structure Rel (E : Nat → Prop) (u v : World T) : Prop where
  store : u.store = v.store
  nodeNext : u.nodeNext = v.nodeNext
  layerNext : u.layerNext = v.layerNext
  rnd : u.rnd = v.rnd
  draws : u.draws = v.draws
  same : ∀ l, ¬ E l → u.layers l = v.layers l
  open_ : ∀ l, E l → u.layers l = { v.layers l with pre := none }
  lt : ∀ l, E l → l < v.layerNext

/-- What the fields of type `Layer` hold after the parts `ps` have been pushed to a model.  `hd`: its `FirstLayer`; `prev`: its `LastLayer` before
and `last`: after that; `a`: the first layer of `ps`; the models made have numbers from `lo` on. -/
def Chain (u : World T) (L : Links) (lo : Nat) (hd : Option Item) : Option Item → Parts T → Option Item → Nat → Prop
  | prev, .nil, last, _ => last = prev
  | prev, .layer _ r, last, a => (match prev with
      | none => hd = some (.layer a)
      | some p => L.pre a = some p) ∧ Chain u L lo hd (some (.layer a)) r last (a + 1)
  | prev, .block b r, last, a => ∃ k, lo ≤ k ∧ k < u.netNext ∧ (u.nets k).first = some a ∧ (match prev with
      | none => hd = some (.model k)
      | some p => L.pre a = some p) ∧ Chain u L lo (L.first k) none b (L.last k) a ∧
        Chain u L lo hd (some (.model k)) r last (a + b.layers.length)

theorem parts_pos {b : Parts T} (h : b ≠ .nil) (hf : b.Full) : 0 < b.layers.length := by
  induction b with
  | nil => exact absurd rfl h
  | layer s r _ => simp [Parts.layers]
  | block b r ih _ =>
    have := ih hf.1 hf.2.1
    simp only [Parts.layers, List.length_append]
    omega

theorem Chain.keep {u u' : World T} {L L' : Links} {lo : Nat} {hd prev last : Option Item} {ps : Parts T} {a : Nat}
    (h : Chain u L lo hd prev ps last a) (hf : ps.Full) (hn : u.netNext ≤ u'.netNext)
    (hk : ∀ k, lo ≤ k → k < u.netNext → (u'.nets k).first = (u.nets k).first ∧ L'.first k = L.first k ∧ L'.last k = L.last k)
    (hp : ∀ l, a ≤ l → l < a + ps.layers.length → (prev = none → a < l) → L'.pre l = L.pre l) : Chain u' L' lo hd prev ps last a := by
  induction ps generalizing hd prev last a with
  | nil => exact h
  | layer s r ih =>
    obtain ⟨h1, h2⟩ := h
    refine ⟨?_, ih h2 hf fun l hl1 hl2 _ => hp l (by omega) (by simp only [Parts.layers, List.length_cons]; omega) (fun _ => by omega)⟩
    cases prev with
    | none => exact h1
    | some p =>
      show L'.pre a = some p
      rw [hp a (le_refl _) (by simp only [Parts.layers, List.length_cons]; omega) (fun h => by cases h)]
      exact h1
  | block b r ihb ihr =>
    obtain ⟨k, k1, k2, k3, h1, h2, h3⟩ := h
    obtain ⟨x1, x2, x3⟩ := hk k k1 k2
    have hb := parts_pos hf.1 hf.2.1
    have hlen : (Parts.block b r).layers.length = b.layers.length + r.layers.length := by simp [Parts.layers]
    refine ⟨k, k1, lt_of_lt_of_le k2 hn, by rw [x1]; exact k3, ?_, ?_, ?_⟩
    · cases prev with
      | none => exact h1
      | some p =>
        show L'.pre a = some p
        rw [hp a (le_refl _) (by omega) (fun h => by cases h)]
        exact h1
    · rw [x2, x3]
      exact ihb h2 hf.2.1 fun l hl1 hl2 hl3 => hp l hl1 (by omega) (fun _ => hl3 rfl)
    · exact ihr h3 hf.2.2 fun l hl1 hl2 _ => hp l (by omega) (by omega) (fun _ => by omega)

theorem Chain.low {u : World T} {L : Links} {lo lo' : Nat} {hd prev last : Option Item} {ps : Parts T} {a : Nat}
    (h : Chain u L lo hd prev ps last a) (hl : lo' ≤ lo) : Chain u L lo' hd prev ps last a := by
  induction ps generalizing hd prev last a with
  | nil => exact h
  | layer s r ih => exact ⟨h.1, ih h.2⟩
  | block b r ihb ihr =>
    obtain ⟨k, k1, k2, k3, h1, h2, h3⟩ := h
    exact ⟨k, by omega, k2, k3, h1, ihb h2, ihr h3⟩

/-- before parts are pushed to model `k`, in `v`: the layers to model `m`; `prev`: the last part of model `k` so far -/
structure St (m k : Nat) (prev : Option Item) (E : Nat → Prop) (u : World T) (L : Links) (v : World T) : Prop where
  rel : Rel E u v
  lt : k < u.netNext
  new : ∀ j, u.netNext ≤ j → L.first j = none
  first : (v.nets m).first ≠ none
  last : ∃ p, (v.nets m).last = some p
  head : prev = none → L.first k = none
  tail : ∀ j, prev = some j → L.first k ≠ none ∧ L.last k = some j ∧ Nested.lastLayer u j = (v.nets m).last ∧
    (u.nets k).last = (v.nets m).last ∧ ∀ i, j = .model i → k < i ∧ i < u.netNext

/-- after that -/
structure Pushed (m k : Nat) (prev : Option Item) (E : Nat → Prop) (ps : Parts T) (u : World T) (L : Links) (v u' : World T) (L' : Links)
    (v' : World T) : Prop where
  st : ∃ j, St m k (some j) (fun l => E l ∨ (prev = none ∧ l = v.layerNext)) u' L' v'
  netNext : u.netNext ≤ u'.netNext
  nets : ∀ j < u.netNext, j ≠ k → u'.nets j = u.nets j ∧ L'.first j = L.first j ∧ L'.last j = L.last j
  pre : ∀ l < v.layerNext, L'.pre l = L.pre l
  next : v'.layerNext = v.layerNext + ps.layers.length
  fst : prev ≠ none → L'.first k = L.first k
  netk : u'.nets k = { u.nets k with first := if prev = none then some v.layerNext else (u.nets k).first, last := (v'.nets m).last }
  netm : v'.nets m = { v.nets m with last := (v'.nets m).last }
  linked : prev = none → (v'.layers v.layerNext).pre = (v.nets m).last
  old : ∀ l < v.layerNext, v'.layers l = v.layers l
  chain : Chain u' L' (k + 1) (L'.first k) prev ps (L'.last k) v.layerNext

theorem lift_ok {α : Type} {c : Run T α} {u u' : World T} {L : Links} {a : α} (h : c u = .ok a u') : NRun.lift c (u, L) = .ok a (u', L) := by
  unfold NRun.lift
  rw [h]

/-- the next part after the first one -/
theorem Pushed.cons {m k : Nat} {prev : Option Item} {E E1 : Nat → Prop} {ps r q : Parts T} {u u1 u' v v1 v' : World T} {L L1 L' : Links}
    {i : Item} (hE : ∀ l, E1 l ↔ E l ∨ (prev = none ∧ l = v.layerNext))
    (A : Pushed m k (some i) E1 r u1 L1 v1 u' L' v')
    (hq : ps.layers.length = q.layers.length + r.layers.length) (q0 : 0 < q.layers.length) (hk : k < u.netNext)
    (netNext : u.netNext ≤ u1.netNext)
    (nets : ∀ j < u.netNext, j ≠ k → u1.nets j = u.nets j ∧ L1.first j = L.first j ∧ L1.last j = L.last j)
    (pre : ∀ l < v.layerNext, L1.pre l = L.pre l)
    (next : v1.layerNext = v.layerNext + q.layers.length)
    (fst : prev ≠ none → L1.first k = L.first k)
    (netk : u1.nets k = { u.nets k with first := if prev = none then some v.layerNext else (u.nets k).first, last := (v1.nets m).last })
    (netm : v1.nets m = { v.nets m with last := (v1.nets m).last })
    (linked : prev = none → (v1.layers v.layerNext).pre = (v.nets m).last)
    (old : ∀ l < v.layerNext, v1.layers l = v.layers l)
    (chain : Chain u' L' (k + 1) (L'.first k) prev ps (L'.last k) v.layerNext) :
    Pushed m k prev E ps u L v u' L' v' := by
  obtain ⟨j, S⟩ := A.st
  have e : (fun l => E1 l ∨ (some i = none ∧ l = v1.layerNext)) = fun l => E l ∨ (prev = none ∧ l = v.layerNext) := by
    funext l
    rw [hE l]
    simp
  rw [e] at S
  refine ⟨⟨j, S⟩, le_trans netNext A.netNext, fun j hj hn => ?_, fun l hl => ?_, ?_, fun h => ?_, ?_, ?_, fun h => ?_, fun l hl => ?_, chain⟩
  · obtain ⟨x1, x2, x3⟩ := A.nets j (by omega) hn
    obtain ⟨y1, y2, y3⟩ := nets j hj hn
    exact ⟨x1.trans y1, x2.trans y2, x3.trans y3⟩
  · rw [A.pre l (by omega), pre l hl]
  · rw [A.next, next]; omega
  · rw [A.fst (by simp), fst h]
  · rw [A.netk, netk]; simp
  · rw [A.netm, netm]
  · rw [A.old _ (by omega)]; exact linked h
  · rw [A.old l (by omega), old l hl]

theorem block_chain {m k kk a : Nat} {E : Nat → Prop} {b r : Parts T} {u1 u2 u' v1 v' : World T} {L1 L2 L' : Links} (hb : b.Full)
    (B : Pushed m k (some (.model kk)) E r u2 L2 v1 u' L' v') (C : Chain u1 L1 (kk + 1) (L1.first kk) none b (L1.last kk) a)
    (h1 : u2.netNext = u1.netNext) (h2 : ∀ j, j ≠ k → u2.nets j = u1.nets j ∧ L2.first j = L1.first j ∧ L2.last j = L1.last j)
    (h3 : ∀ l, l ≠ a → L2.pre l = L1.pre l) (hkk : k < kk) (hn : kk < u1.netNext) (kf : (u1.nets kk).first = some a)
    (hx : v1.layerNext = a + b.layers.length) :
    kk < u'.netNext ∧ (u'.nets kk).first = some a ∧ Chain u' L' (k + 1) (L'.first kk) none b (L'.last kk) a ∧
      Chain u' L' (k + 1) (L'.first k) (some (.model kk)) r (L'.last k) (a + b.layers.length) := by
  have hB := B.netNext
  have e : ∀ j, k < j → j < u1.netNext → u'.nets j = u1.nets j ∧ L'.first j = L1.first j ∧ L'.last j = L1.last j := fun j h4 h5 => by
    obtain ⟨x1, x2, x3⟩ := B.nets j (by omega) (by omega)
    obtain ⟨y1, y2, y3⟩ := h2 j (by omega)
    exact ⟨x1.trans y1, x2.trans y2, x3.trans y3⟩
  obtain ⟨e1, e2, e3⟩ := e kk hkk hn
  refine ⟨by omega, by rw [e1]; exact kf, ?_, ?_⟩
  · rw [e2, e3]
    refine Chain.low (C.keep hb (by omega) (fun j h4 h5 => ?_) fun l h4 h5 h6 => ?_) (by omega)
    · obtain ⟨x1, x2, x3⟩ := e j (by omega) h5
      exact ⟨by rw [x1], x2, x3⟩
    · have := h6 rfl
      rw [B.pre l (by omega), h3 l (by omega)]
  · rw [← hx]
    exact B.chain

theorem push_parts (ps : Parts T) : ∀ {m k : Nat} {prev : Option Item} {E : Nat → Prop} {u v v' : World T} {L : Links}, ps.Full →
    (prev = none → ps ≠ .nil) → St m k prev E u L v → flat m ps.layers v = .ok () v' →
    ∃ u' L', ps.push k (u, L) = .ok () (u', L') ∧ Pushed m k prev E ps u L v u' L' v' := by
  induction ps with
  | nil =>
    intro m k prev E u v v' L _ hp S e
    cases e
    cases prev with
    | none => exact absurd rfl (hp rfl)
    | some j =>
      obtain ⟨t1, t2, t3, t4, t5⟩ := S.tail j rfl
      refine ⟨u, L, rfl, ⟨j, ?_⟩, le_refl _, fun _ _ _ => ⟨rfl, rfl, rfl⟩, fun _ _ => rfl, rfl, fun _ => rfl, ?_, rfl, fun h => (by cases h), fun _ _ => rfl, t2⟩
      · have e : (fun l => E l ∨ (some j = none ∧ l = v.layerNext)) = E := by funext l; simp
        rw [e]; exact S
      · rw [← t4]; simp
  | layer s r ih =>
    intro m k prev E u v v' L hf hp S e
    obtain ⟨p, hlast⟩ := S.last
    obtain ⟨x, st, nn, hx, hc, e'⟩ := flat_cons S.first hlast e
    obtain ⟨a, ha⟩ : ∃ a, a = v.layerNext := ⟨_, rfl⟩
    have hua : u.layerNext = a := by rw [ha]; exact S.rel.layerNext
    have hcu := hc u S.rel.store S.rel.nodeNext S.rel.layerNext
    rw [← ha] at hcu e'
    obtain ⟨v1, hv1⟩ : ∃ v1, v1 = updN m (fun y => { y with last := some a }) (addL { x with pre := some p } st nn v) := ⟨_, rfl⟩
    rw [← hv1] at e'
    have v1l : ∀ l, v1.layers l = if l = a then { x with pre := some p } else v.layers l := fun l => by rw [hv1, ha]; rfl
    have v1n : v1.nets m = { v.nets m with last := some a } := by rw [hv1, updN_same]; rfl
    have v1x : v1.layerNext = a + 1 := by rw [hv1, ha]; rfl
    have v1s : v1.store = st ∧ v1.nodeNext = nn ∧ v1.rnd = v.rnd ∧ v1.draws = v.draws := by rw [hv1]; exact ⟨rfl, rfl, rfl, rfl⟩
    have hne : ∀ l, E l → l ≠ a := fun l hl => by have := S.rel.lt l hl; omega
    cases prev with
    | none =>
      have hhd := S.head rfl
      obtain ⟨u1, hu1⟩ : ∃ u1 : World T, u1 = { addL x st nn u with nets := fun j => if j = k then { u.nets j with first := some a, last := some a } else u.nets j } := ⟨_, rfl⟩
      obtain ⟨L1, hL1⟩ : ∃ L1 : Links, L1 = { L with first := fun j => if j = k then some (.layer a) else L.first j, last := fun j => if j = k then some (.layer a) else L.last j } := ⟨_, rfl⟩
      have ep : Nested.push k (.layer a) (addL x st nn u, L) = .ok () (u1, L1) := by
        show (match L.first k with | none => _ | some _ => _ : Out (World T × Links) Unit) = _
        rw [hhd, hu1, hL1]; rfl
      have u1l : ∀ l, u1.layers l = if l = a then x else u.layers l := fun l => by rw [hu1, ← hua]; rfl
      have S1 : St m k (some (.layer a)) (fun l => E l ∨ l = a) u1 L1 v1 := by
        refine ⟨⟨by rw [hu1, v1s.1]; rfl, by rw [hu1, v1s.2.1]; rfl, by rw [hu1, v1x, ← hua]; rfl, by rw [v1s.2.2.1, hu1]; exact S.rel.rnd, by rw [v1s.2.2.2, hu1]; exact S.rel.draws, fun l hl => ?_, fun l hl => ?_, fun l hl => ?_⟩, by rw [hu1]; exact S.lt, fun j hj => ?_, by rw [v1n]; exact S.first, ⟨a, by rw [v1n]⟩,
          fun h => (by cases h), fun j hj => ?_⟩
        · rw [u1l, v1l, if_neg (fun h => hl (Or.inr h)), if_neg (fun h => hl (Or.inr h))]
          exact S.rel.same l fun h => hl (Or.inl h)
        · rw [u1l, v1l]
          rcases hl with hl | hl
          · rw [if_neg (hne l hl), if_neg (hne l hl)]; exact S.rel.open_ l hl
          · rw [if_pos hl, if_pos hl]
            show x = { x with pre := none }
            rw [← hx]
        · rcases hl with hl | hl
          · have := S.rel.lt l hl; omega
          · omega
        · have hj' : u.netNext ≤ j := by rw [hu1] at hj; exact hj
          have := S.lt
          rw [hL1]
          show (if j = k then _ else L.first j) = none
          rw [if_neg (by omega)]
          exact S.new j hj'
        · cases hj
          refine ⟨by rw [hL1]; simp, by rw [hL1]; simp, by rw [v1n]; rfl, by rw [v1n, hu1]; simp, fun i hi => by cases hi⟩
      obtain ⟨u', L', er, A⟩ := ih hf (by simp) S1 e'
      refine ⟨u', L', ?_, A.cons (q := .layer s .nil) (by simp [ha]) (by simp [Parts.layers]; omega) (by simp [Parts.layers]) S.lt (by rw [hu1]; exact le_refl _) (fun j _ hj => ?_)
        (fun l _ => by rw [hL1]) (by rw [v1x, ha]; rfl) (fun h => absurd rfl h) (by rw [hu1, v1n, ha]; simp) (by rw [v1n])
        (fun _ => by rw [v1l, ← ha, if_pos rfl, hlast]) (fun l hl => by rw [v1l, if_neg (by omega)]) ⟨?_, ?_⟩⟩
      · show (NRun.lift s.create (u, L)).bind _ = _
        rw [lift_ok hcu]
        show (Nested.push k (.layer a) (addL x st nn u, L)).bind _ = _
        rw [ep]
        exact er
      · rw [hu1, hL1]; simp [hj]
      · show L'.first k = some (.layer v.layerNext)
        rw [A.fst (by simp), hL1, ha]; simp
      · have := A.chain
        rw [v1x, ha] at this
        exact this
    | some j =>
      obtain ⟨t1, t2, t3, t4, t5⟩ := S.tail j rfl
      obtain ⟨f, hfk⟩ := Option.ne_none_iff_exists'.1 t1
      obtain ⟨u1, hu1⟩ : ∃ u1 : World T, u1 = { addL x st nn u with
          layers := fun l => if l = a then { (addL x st nn u).layers l with pre := Nested.lastLayer (addL x st nn u) j } else (addL x st nn u).layers l
          nets := fun i => if i = k then { u.nets i with last := some a } else u.nets i } := ⟨_, rfl⟩
      obtain ⟨L1, hL1⟩ : ∃ L1 : Links, L1 = { L with pre := fun l => if l = a then some j else L.pre l, last := fun i => if i = k then some (.layer a) else L.last i } := ⟨_, rfl⟩
      have ep : Nested.push k (.layer a) (addL x st nn u, L) = .ok () (u1, L1) := by
        show (match L.first k with
          | none => _
          | some _ => (match some a, L.last k with | some f, some j => _ | _, _ => _) : Out (World T × Links) Unit) = _
        rw [hfk, t2, hu1, hL1]; rfl
      have el : Nested.lastLayer (addL x st nn u) j = some p := by rw [← hlast, ← t3]; cases j <;> rfl
      have u1l : ∀ l, u1.layers l = if l = a then { x with pre := some p } else u.layers l := fun l => by
        rw [hu1]
        show (if l = a then _ else _) = _
        by_cases hl : l = a
        · rw [if_pos hl, if_pos hl, el]
          show { (if l = u.layerNext then x else u.layers l) with pre := some p } = _
          rw [if_pos (by omega)]
        · rw [if_neg hl, if_neg hl]
          show (if l = u.layerNext then x else u.layers l) = _
          rw [if_neg (by omega)]
      have S1 : St m k (some (.layer a)) E u1 L1 v1 := by
        refine ⟨⟨by rw [hu1, v1s.1]; rfl, by rw [hu1, v1s.2.1]; rfl, by rw [hu1, v1x, ← hua]; rfl, by rw [v1s.2.2.1, hu1]; exact S.rel.rnd, by rw [v1s.2.2.2, hu1]; exact S.rel.draws, fun l hl => ?_, fun l hl => ?_, fun l hl => ?_⟩, by rw [hu1]; exact S.lt, fun i hi => ?_, by rw [v1n]; exact S.first, ⟨a, by rw [v1n]⟩,
          fun h => (by cases h), fun i hi => ?_⟩
        · rw [u1l, v1l]
          split
          · rfl
          · exact S.rel.same l hl
        · rw [u1l, v1l, if_neg (hne l hl), if_neg (hne l hl)]; exact S.rel.open_ l hl
        · have := S.rel.lt l hl; omega
        · have hi' : u.netNext ≤ i := by rw [hu1] at hi; exact hi
          rw [hL1]
          exact S.new i hi'
        · cases hi
          refine ⟨by rw [hL1]; exact t1, by rw [hL1]; simp, by rw [v1n]; rfl, by rw [v1n, hu1]; simp, fun i hi => by cases hi⟩
      obtain ⟨u', L', er, A⟩ := ih hf (by simp) S1 e'
      refine ⟨u', L', ?_, A.cons (q := .layer s .nil) (by simp) (by simp [Parts.layers]; omega) (by simp [Parts.layers]) S.lt (by rw [hu1]; exact le_refl _) (fun i _ hi => ?_)
        (fun l hl => by rw [hL1]; exact if_neg (by omega)) (by rw [v1x, ha]; rfl) (fun _ => by rw [hL1]) (by rw [hu1, v1n]; simp) (by rw [v1n])
        (fun h => by cases h) (fun l hl => by rw [v1l, if_neg (by omega)]) ⟨?_, ?_⟩⟩
      · show (NRun.lift s.create (u, L)).bind _ = _
        rw [lift_ok hcu]
        show (Nested.push k (.layer a) (addL x st nn u, L)).bind _ = _
        rw [ep]
        exact er
      · rw [hu1, hL1]; simp [hi]
      · show L'.pre v.layerNext = some j
        rw [A.pre _ (by omega), hL1, ha]; simp
      · have := A.chain
        rw [v1x, ha] at this
        exact this
  | block b r ihb ihr =>
    intro m k prev E u v v' L hf hp S e
    obtain ⟨hbn, hfb, hfr⟩ := hf
    obtain ⟨v1, e1, e2⟩ := flat_append e
    obtain ⟨a, ha⟩ : ∃ a, a = v.layerNext := ⟨_, rfl⟩
    obtain ⟨kk, hkk⟩ : ∃ kk, kk = u.netNext := ⟨_, rfl⟩
    have hk := S.lt
    obtain ⟨u0, hu0⟩ : ∃ u0 : World T, u0 = { u with nets := fun j => if j = kk then NetM.blankNet else u.nets j, netNext := kk + 1 } := ⟨_, rfl⟩
    have en : NetM.newModel u = .ok kk u0 := by rw [hu0, hkk]; rfl
    have u0n : ∀ j, j ≠ kk → u0.nets j = u.nets j := fun j hj => by rw [hu0]; exact if_neg hj
    have S0 : St m kk none E u0 L v := by
      refine ⟨⟨by rw [hu0]; exact S.rel.store, by rw [hu0]; exact S.rel.nodeNext, by rw [hu0]; exact S.rel.layerNext, by rw [hu0]; exact S.rel.rnd, by rw [hu0]; exact S.rel.draws, fun l hl => by rw [hu0]; exact S.rel.same l hl, fun l hl => by rw [hu0]; exact S.rel.open_ l hl, S.rel.lt⟩,
        by rw [hu0]; exact Nat.lt_succ_self _, fun j hj => S.new j (by rw [hu0] at hj; simp at hj; omega), S.first, S.last,
        fun _ => S.new kk (by omega), fun j hj => by cases hj⟩
    obtain ⟨u1, L1, ep1, A⟩ := ihb hfb (fun _ => hbn) S0 e1
    obtain ⟨j1, S1⟩ := A.st
    have u0x : u0.netNext = kk + 1 := by rw [hu0]
    have n1 := A.netNext
    obtain ⟨p1, hp1⟩ := S1.last
    have nk := A.netk
    rw [if_pos rfl, hp1, ← ha] at nk
    have kf : (u1.nets kk).first = some a := by rw [nk]
    have kl : (u1.nets kk).last = some p1 := by rw [nk]
    obtain ⟨on, of, ol⟩ := A.nets k (by omega) (by omega)
    have lb : 0 < b.layers.length := parts_pos hbn hfb
    have nx := A.next
    cases prev with
    | none =>
      have hhd : L1.first k = none := of.trans (S.head rfl)
      obtain ⟨u2, hu2⟩ : ∃ u2 : World T, u2 = { u1 with nets := fun j => if j = k then { u1.nets j with first := some a, last := some p1 } else u1.nets j } := ⟨_, rfl⟩
      obtain ⟨L2, hL2⟩ : ∃ L2 : Links, L2 = { L1 with first := fun j => if j = k then some (.model kk) else L1.first j, last := fun j => if j = k then some (.model kk) else L1.last j } := ⟨_, rfl⟩
      have ep : Nested.push k (.model kk) (u1, L1) = .ok () (u2, L2) := by
        show (match L1.first k with | none => _ | some _ => _ : Out (World T × Links) Unit) = _
        rw [hhd, hu2, hL2, ← kf, ← kl]; rfl
      have S2 : St m k (some (.model kk)) (fun l => E l ∨ l = a) u2 L2 v1 := by
        have R := S1.rel
        have eE : (fun l => E l ∨ ((none : Option Item) = none ∧ l = v.layerNext)) = fun l => E l ∨ l = a := by
          funext l; rw [ha]; simp
        rw [eE] at R
        refine ⟨by rw [hu2]; exact ⟨R.1, R.2, R.3, R.4, R.5, R.6, R.7, R.8⟩, by rw [hu2]; show k < u1.netNext; omega, fun j hj => ?_, S1.first, S1.last, fun h => (by cases h), fun j hj => ?_⟩
        · have hj' : u1.netNext ≤ j := by rw [hu2] at hj; exact hj
          rw [hL2]
          show (if j = k then _ else L1.first j) = none
          rw [if_neg (by omega)]
          exact S1.new j hj'
        · cases hj
          refine ⟨by rw [hL2]; simp, by rw [hL2]; simp, ?_, by rw [hp1, hu2]; simp, fun i hi => ?_⟩
          · show (u2.nets kk).last = _
            rw [hu2, hp1, ← kl]
            show (if kk = k then _ else u1.nets kk).last = _
            rw [if_neg (by omega)]
          · cases hi
            rw [hu2]
            exact ⟨by omega, by show kk < u1.netNext; omega⟩
      obtain ⟨u', L', er, B⟩ := ihr hfr (by simp) S2 e2
      have u2x : u2.netNext = u1.netNext := by rw [hu2]
      obtain ⟨c1, c2, c3, c4⟩ := block_chain hfb B (by rw [ha]; exact A.chain) u2x (fun j hj => by rw [hu2, hL2]; simp [hj])
        (fun l _ => by rw [hL2]) (by omega) (by omega) kf (by rw [nx, ha])
      refine ⟨u', L', ?_, B.cons (q := b) (by simp [ha]) (by simp [Parts.layers]) lb S.lt (by omega) (fun j hj hn => ?_)
        (fun l hl => by rw [hL2]; exact A.pre l hl) (by rw [nx]) (fun h => absurd rfl h) ?_ A.netm
        (fun _ => A.linked rfl) A.old ⟨kk, by omega, c1, by rw [← ha]; exact c2, ?_, by rw [← ha]; exact c3, by rw [← ha]; exact c4⟩⟩
      · rw [Parts.push]
        show (NRun.lift NetM.newModel (u, L)).bind _ = _
        rw [lift_ok en]
        show (b.push kk (u0, L)).bind _ = _
        rw [ep1]
        show (Nested.push k (.model kk) (u1, L1)).bind _ = _
        rw [ep]
        exact er
      · obtain ⟨x1, x2, x3⟩ := A.nets j (by omega) (by omega)
        rw [u0n j (by omega)] at x1
        rw [hu2, hL2]
        simp [hn, x1, x2, x3]
      · rw [hu2]
        show (if k = k then _ else _) = _
        rw [if_pos rfl, if_pos rfl, on, u0n k (by omega), hp1, ha]
      · show L'.first k = some (.model kk)
        rw [B.fst (by simp), hL2]; simp
    | some j =>
      obtain ⟨t1, t2, t3, t4, t5⟩ := S.tail j rfl
      obtain ⟨f, hfk⟩ := Option.ne_none_iff_exists'.1 (of ▸ t1 : L1.first k ≠ none)
      have hlj : Nested.lastLayer u1 j = (v.nets m).last := by
        rw [← t3]
        cases j with
        | layer l => rfl
        | model i =>
          have := (t5 i rfl).2
          obtain ⟨x1, _⟩ := A.nets i (by omega) (by omega)
          show (u1.nets i).last = (u.nets i).last
          rw [x1, u0n i (by omega)]
      obtain ⟨u2, hu2⟩ : ∃ u2 : World T, u2 = { u1 with
          layers := fun l => if l = a then { u1.layers l with pre := Nested.lastLayer u1 j } else u1.layers l
          nets := fun i => if i = k then { u1.nets i with last := some p1 } else u1.nets i } := ⟨_, rfl⟩
      obtain ⟨L2, hL2⟩ : ∃ L2 : Links, L2 = { L1 with pre := fun l => if l = a then some j else L1.pre l, last := fun i => if i = k then some (.model kk) else L1.last i } := ⟨_, rfl⟩
      have ep : Nested.push k (.model kk) (u1, L1) = .ok () (u2, L2) := by
        show (match L1.first k with
          | none => _
          | some _ => (match (u1.nets kk).first, L1.last k with | some f, some j => _ | _, _ => _) : Out (World T × Links) Unit) = _
        rw [hfk, ol, t2, hu2, hL2, kf, ← kl]; rfl
      have u2x : u2.netNext = u1.netNext := by rw [hu2]
      have S2 : St m k (some (.model kk)) E u2 L2 v1 := by
        have R := S1.rel
        refine ⟨⟨by rw [hu2]; exact R.store, by rw [hu2]; exact R.nodeNext, by rw [hu2]; exact R.layerNext, by rw [hu2]; exact R.rnd, by rw [hu2]; exact R.draws, fun l hl => ?_, fun l hl => ?_, fun l hl => R.lt l (Or.inl hl)⟩,
          by omega, fun i hi => ?_, S1.first, S1.last, fun h => (by cases h), fun i hi => ?_⟩
        · rw [hu2]
          show (if l = a then _ else _) = _
          by_cases hla : l = a
          · rw [if_pos hla, R.open_ l (Or.inr ⟨rfl, by omega⟩), hlj, ← A.linked rfl, ← ha, hla]
          · rw [if_neg hla]
            exact R.same l fun h => h.elim hl fun h => hla (by omega)
        · have := S.rel.lt l hl
          rw [hu2]
          show (if l = a then _ else _) = _
          rw [if_neg (by omega)]
          exact R.open_ l (Or.inl hl)
        · rw [hL2]
          exact S1.new i (by omega)
        · cases hi
          refine ⟨by rw [hL2]; show L1.first k ≠ none; rw [of]; exact t1, by rw [hL2]; simp, ?_, by rw [hp1, hu2]; simp, fun i hi => ?_⟩
          · show (u2.nets kk).last = _
            rw [hu2, hp1, ← kl]
            show (if kk = k then _ else u1.nets kk).last = _
            rw [if_neg (by omega)]
          · cases hi
            exact ⟨by omega, by omega⟩
      obtain ⟨u', L', er, B⟩ := ihr hfr (by simp) S2 e2
      obtain ⟨c1, c2, c3, c4⟩ := block_chain hfb B (by rw [ha]; exact A.chain) u2x (fun j hj => by rw [hu2, hL2]; simp [hj])
        (fun l hl => by rw [hL2]; exact if_neg hl) (by omega) (by omega) kf (by rw [nx, ha])
      refine ⟨u', L', ?_, B.cons (q := b) (by simp) (by simp [Parts.layers]) lb S.lt (by omega) (fun i hi hn => ?_)
        (fun l hl => by rw [hL2]; show (if l = a then _ else L1.pre l) = _; rw [if_neg (by omega)]; exact A.pre l hl) (by rw [nx]) (fun _ => by rw [hL2]; exact of) ?_ A.netm
        (fun h => by cases h) A.old ⟨kk, by omega, c1, by rw [← ha]; exact c2, ?_, by rw [← ha]; exact c3, by rw [← ha]; exact c4⟩⟩
      · rw [Parts.push]
        show (NRun.lift NetM.newModel (u, L)).bind _ = _
        rw [lift_ok en]
        show (b.push kk (u0, L)).bind _ = _
        rw [ep1]
        show (Nested.push k (.model kk) (u1, L1)).bind _ = _
        rw [ep]
        exact er
      · obtain ⟨x1, x2, x3⟩ := A.nets i (by omega) (by omega)
        rw [u0n i (by omega)] at x1
        rw [hu2, hL2]
        simp [hn, x1, x2, x3]
      · rw [hu2]
        show (if k = k then _ else _) = _
        rw [if_pos rfl, on, u0n k (by omega), hp1]
        simp
      · show L'.pre v.layerNext = some j
        rw [B.pre _ (by omega), hL2, ha]; simp

/-- a model of blocks and the model with the same layers -/
theorem nested_ok {shape : List Nat} {ps : Parts T} (hf : ps.Full) {w0 w1 : World T} {m : Nat} {L0 : Links}
    (hL : ∀ k, w0.netNext ≤ k → L0.first k = none) (e : stacked shape ps.layers w0 = .ok m w1) :
    ∃ w L, nested shape ps (w0, L0) = .ok m (w, L) ∧ Same m w1 w ∧ m = w0.netNext ∧ w1.layerNext = w0.layerNext + 1 + ps.layers.length ∧
      L.first m = some (.layer w0.layerNext) ∧
      Chain w L (m + 1) (some (.layer w0.layerNext)) (some (.layer w0.layerNext)) ps (L.last m) (w0.layerNext + 1) := by
  unfold stacked at e
  obtain ⟨m', v0, e1, e2⟩ := out_bind_ok (r := NetM.newModel w0) (f := fun m : Nat => (do
    let i ← LayerM.newInput shape
    NetM.pushLayer m i
    Run.each ps.layers fun s => do
      let l ← s.create
      NetM.pushLayer m l
    return m : Run T Nat)) e
  cases e1
  obtain ⟨i, v1, e3, e4⟩ := out_bind_ok (show (LayerM.newInput shape _).bind _ = _ from e2)
  obtain ⟨_, v2, e5, e6⟩ := out_bind_ok (show (NetM.pushLayer w0.netNext i v1).bind _ = _ from e4)
  obtain ⟨_, v3, e7, e8⟩ := out_bind_ok (show (flat w0.netNext ps.layers v2).bind _ = _ from e6)
  cases e8
  obtain ⟨o, v4, e9, e10⟩ := out_bind_ok (show (Run.zeros shape _).bind _ = _ from e3)
  obtain ⟨st, nn, rfl, _⟩ := zeros_form e9
  obtain ⟨d, v5, e11, e12⟩ := out_bind_ok (show (Run.zeros shape _).bind _ = _ from e10)
  obtain ⟨st', nn', rfl, _⟩ := zeros_form e11
  obtain ⟨x, hx⟩ : ∃ x : Layer T, x = { LayerM.blank .input with input := some o, dif := some d, act := .linear } := ⟨_, rfl⟩
  obtain ⟨vv, hvv⟩ : ∃ vv : World T, vv = addL x st' nn' { w0 with nets := fun k => if k = w0.netNext then NetM.blankNet else w0.nets k, netNext := w0.netNext + 1 } := ⟨_, rfl⟩
  have ev : Out.ok w0.layerNext vv = Out.ok i v1 := by rw [← e12, hvv, hx]; rfl
  cases ev
  have hblank : v1.nets w0.netNext = NetM.blankNet := by rw [hvv]; exact if_pos rfl
  rw [push_first (by rw [hblank]; rfl)] at e5
  cases e5
  obtain ⟨L1, hL1⟩ : ∃ L1 : Links, L1 = { L0 with first := fun k => if k = w0.netNext then some (.layer w0.layerNext) else L0.first k, last := fun k => if k = w0.netNext then some (.layer w0.layerNext) else L0.last k } := ⟨_, rfl⟩
  obtain ⟨u1, hu1⟩ : ∃ u1 : World T, u1 = updN w0.netNext (fun x => { x with first := some w0.layerNext, last := some w0.layerNext }) v1 := ⟨_, rfl⟩
  rw [← hu1] at e7
  have ep : Nested.push w0.netNext (.layer w0.layerNext) (v1, L0) = .ok () (u1, L1) := by
    show (match L0.first w0.netNext with | none => _ | some _ => _ : Out (World T × Links) Unit) = _
    rw [hL _ (le_refl _), hu1, hL1]
    show Out.ok () _ = _
    congr 2
  have u1n : u1.nets w0.netNext = { NetM.blankNet with first := some w0.layerNext, last := some w0.layerNext } := by
    rw [hu1, updN_same, hblank]
  have u1x : u1.netNext = w0.netNext + 1 := by rw [hu1, hvv]; rfl
  have u1y : u1.layerNext = w0.layerNext + 1 := by rw [hu1, hvv]; rfl
  have S : St w0.netNext w0.netNext (some (.layer w0.layerNext)) (fun _ => False) u1 L1 u1 :=
    ⟨⟨rfl, rfl, rfl, rfl, rfl, fun _ _ => rfl, fun _ h => h.elim, fun _ h => h.elim⟩, by omega,
      fun j hj => by rw [hL1]; show (if j = w0.netNext then _ else L0.first j) = none; rw [if_neg (by omega)]; exact hL j (by omega),
      by rw [u1n]; simp, ⟨_, by rw [u1n]⟩, fun h => (by cases h), fun j hj => by
        cases hj
        exact ⟨by rw [hL1]; simp, by rw [hL1]; simp, by rw [u1n]; rfl, rfl, fun _ h => by cases h⟩⟩
  obtain ⟨w, L, er, P⟩ := push_parts ps hf (by simp) S e7
  obtain ⟨j, S'⟩ := P.st
  have hfst : L.first w0.netNext = some (.layer w0.layerNext) := by rw [P.fst (by simp), hL1]; simp
  have R := S'.rel
  refine ⟨w, L, ?_, ⟨R.store, R.nodeNext, ?_, R.layerNext, R.rnd, R.draws, ?_⟩, rfl, by rw [P.next, u1y], hfst, ?_⟩
  · unfold nested
    show (NRun.lift NetM.newModel (w0, L0)).bind _ = _
    rw [lift_ok (show NetM.newModel w0 = .ok _ _ from rfl)]
    show (NRun.lift (LayerM.newInput shape) (_, L0)).bind _ = _
    rw [lift_ok e3]
    show (Nested.push w0.netNext (.layer w0.layerNext) (v1, L0)).bind _ = _
    rw [ep]
    show (ps.push w0.netNext (u1, L1)).bind _ = _
    rw [er]
    rfl
  · funext l
    exact R.same l (by simp)
  · rw [P.netk, P.netm]
    simp
  · have := P.chain
    rw [hfst, u1y] at this
    exact this

/-- layers `l` with `f l` are set to be trainable or not -/
def setT (f : Nat → Bool) (t : Bool) (w : World T) : World T :=
  { w with layers := fun l => if f l then { w.layers l with trainable := t } else w.layers l }

theorem setT_setT (f g : Nat → Bool) (t : Bool) (w : World T) : setT f t (setT g t w) = setT (fun l => f l || g l) t w := by
  unfold setT
  congr 1
  funext l
  cases h1 : f l <;> cases h2 : g l <;> simp [h1, h2]

/-- the layers from `a` on for which `bs` holds -/
def hits (a : Nat) (bs : List Bool) (l : Nat) : Bool := decide (a ≤ l) && (bs[l - a]?).getD false

theorem hits_nil (a l : Nat) : hits a [] l = false := by simp [hits]

theorem hits_false (a n : Nat) {α : Type} (x : List α) (l : Nat) (_h : x.length = n) : hits a (x.map fun _ => false) l = false := by
  unfold hits
  simp only [List.getElem?_map]
  cases x[l - a]? <;> simp

theorem hits_append (a l : Nat) (x y : List Bool) : hits a (x ++ y) l = (hits a x l || hits (a + x.length) y l) := by
  unfold hits
  by_cases h1 : a ≤ l
  · by_cases h2 : l - a < x.length
    · rw [List.getElem?_append_left h2]
      have : ¬ a + x.length ≤ l := by omega
      simp [this]
    · rw [List.getElem?_append_right (by omega)]
      have h3 : a + x.length ≤ l := by omega
      have h4 : x[l - a]? = none := by simp; omega
      rw [h4]
      have h5 : l - a - x.length = l - (a + x.length) := by omega
      simp [h1, h3, h5]
  · have : ¬ a + x.length ≤ l := by omega
    simp [h1, this]

theorem hits_cons (a l : Nat) (x : Bool) (y : List Bool) : hits a (x :: y) l = ((decide (l = a) && x) || hits (a + 1) y l) := by
  have := hits_append a l [x] y
  rw [show x :: y = [x] ++ y from rfl, this]
  congr 1
  unfold hits
  by_cases h1 : l = a
  · subst h1; simp
  · by_cases h2 : a ≤ l
    · have h3 : ([x] : List Bool)[l - a]? = none := by simp; omega
      rw [h3]; simp [h1]
    · simp [h1, h2]

theorem reached_length (b : Bool) (ps : Parts T) : (ps.reached b).length = ps.layers.length := by
  induction ps generalizing b with
  | nil => rfl
  | layer s r ih => simp [Parts.reached, Parts.layers, ih]
  | block x r ihb ihr =>
    cases b <;> simp [Parts.reached, Parts.layers, ihb, ihr]

theorem setT_none {f : Nat → Bool} (h : ∀ l, f l = false) (t : Bool) (w : World T) : setT f t w = w := by
  unfold setT
  simp [h]

theorem Chain.set {u : World T} {L : Links} {lo : Nat} {hd prev last : Option Item} {ps : Parts T} {a : Nat} (f : Nat → Bool) (t : Bool)
    (h : Chain u L lo hd prev ps last a) (hf : ps.Full) : Chain (setT f t u) L lo hd prev ps last a :=
  h.keep hf (le_refl _) (fun _ _ _ => ⟨rfl, rfl, rfl⟩) fun _ _ _ _ => rfl

/-- how many parts, blocks counted as one -/
def count : Parts T → Nat
  | .nil => 0
  | .layer _ r => count r + 1
  | .block _ r => count r + 1

theorem count_le {ps : Parts T} (h : ps.Full) : count ps ≤ ps.layers.length := by
  induction ps with
  | nil => exact le_refl _
  | layer s r ih =>
    have := ih h
    simp only [count, Parts.layers, List.length_cons]
    omega
  | block b r _ ih =>
    have := ih h.2.2
    have := parts_pos h.1 h.2.1
    simp only [count, Parts.layers, List.length_append]
    omega

theorem loop_step {set : Item → NRun T Unit} {first p : Option Item} {cur : Item} {n f : Nat} {u u' : World T} {L : Links}
    (h1 : some cur ≠ first) (h2 : set cur (u, L) = .ok () (u', L)) (h3 : Nested.firstLayer u' cur = some f) (h4 : L.pre f = p) :
    Nested.setLoop set first (n + 1) (some cur) (u, L) = Nested.setLoop set first n p (u', L) := by
  rw [Nested.setLoop, if_neg h1]
  show (set cur (u, L)).bind _ = _
  rw [h2]
  show (Nested.getPre cur (u', L)).bind _ = _
  unfold Nested.getPre
  rw [show Nested.firstLayer (u', L).1 cur = some f from h3]
  show Nested.setLoop set first n (L.pre f) (u', L) = _
  rw [h4]

theorem loop_stop {set : Item → NRun T Unit} {cur : Item} {n : Nat} {s : World T × Links} :
    Nested.setLoop set (some cur) (n + 1) (some cur) s = .ok () s := by
  rw [Nested.setLoop, if_pos rfl]
  rfl

theorem set_parts (t : Bool) (ps : Parts T) : ∀ {u : World T} {L : Links} {lo a d : Nat} {hd last : Option Item}, ps.Full → ps.depth < d →
    a + ps.layers.length ≤ u.layerNext →
    (∀ p hi h F, Chain u L lo hd (some p) ps last a → hd = some hi → Nested.firstLayer u hi = some h → h < a →
      Nested.setLoop (Nested.setTrainable t d) hd (F + count ps) last (u, L) =
        Nested.setLoop (Nested.setTrainable t d) hd F (some p) (setT (hits a (ps.reached false)) t u, L)) ∧
    (∀ F, Chain u L lo hd none ps last a → ps ≠ .nil →
      Nested.setLoop (Nested.setTrainable t d) hd (F + count ps) last (u, L) = .ok () (setT (hits a (ps.reached true)) t u, L)) := by
  induction ps with
  | nil =>
    intro u L lo a d hd last hf hd' hn
    refine ⟨fun p hi h F C _ _ _ => ?_, fun F _ h => absurd rfl h⟩
    rw [show (Parts.nil : Parts T).reached false = [] from rfl, setT_none (fun l => hits_nil a l)]
    rw [show last = some p from C]
    rfl
  | layer s r ih =>
    intro u L lo a d hd last hf hdep hn
    have hn' : a + 1 + r.layers.length ≤ u.layerNext := by
      simp only [Parts.layers, List.length_cons] at hn; omega
    obtain ⟨e, rfl⟩ : ∃ e, d = e + 1 := ⟨d - 1, by omega⟩
    have key : ∀ (hi : Item) (h F : Nat), hd = some hi → Nested.firstLayer u hi = some h → h < a + 1 → Chain u L lo hd (some (.layer a)) r last (a + 1) →
        Nested.setLoop (Nested.setTrainable t (e + 1)) hd (F + (count r + 1)) last (u, L) =
          Nested.setLoop (Nested.setTrainable t (e + 1)) hd (F + 1) (some (.layer a)) (setT (hits (a + 1) (r.reached false)) t u, L) :=
      fun hi h F h1 h2 h3 C => by
        rw [show F + (count r + 1) = F + 1 + count r by omega]
        exact (ih (lo := lo) (hd := hd) hf hdep hn').1 _ hi h (F + 1) C h1 h2 h3
    refine ⟨fun p hi h F C h1 h2 h3 => ?_, fun F C _ => ?_⟩
    · obtain ⟨c1, c2⟩ := C
      rw [show count (Parts.layer s r) = count r + 1 from rfl, key hi h F h1 h2 (by omega) c2]
      rw [loop_step (u' := setT (fun l => decide (l = a)) t (setT (hits (a + 1) (r.reached false)) t u)) (f := a) (p := some p) ?_ ?_ rfl c1, setT_setT]
      · congr 3
        funext l
        rw [show (Parts.layer s r).reached false = true :: r.reached false from rfl, hits_cons]
        simp
      · rw [h1]
        intro hc
        cases hc
        cases h2
        omega
      · show NRun.lift (LayerM.setTrainable a t) (setT (hits (a + 1) (r.reached false)) t u, L) = _
        refine lift_ok ?_
        show Out.ok () _ = _
        congr 1
        unfold setT
        congr 1
        funext l
        simp
    · obtain ⟨c1, c2⟩ := C
      have c1' : hd = some (.layer a) := c1
      rw [show count (Parts.layer s r) = count r + 1 from rfl, key (.layer a) a F c1' rfl (by omega) c2, c1', loop_stop]
      congr 2
      congr 1
      funext l
      rw [show (Parts.layer s r).reached true = false :: r.reached false from rfl, hits_cons]
      simp
  | block b r ihb ihr =>
    intro u L lo a d hd last hf hdep hn
    obtain ⟨hbn, hfb, hfr⟩ := hf
    have hn' : a + b.layers.length + r.layers.length ≤ u.layerNext := by
      simp only [Parts.layers, List.length_append] at hn; omega
    have hdr : r.depth < d := by
      simp only [Parts.depth] at hdep; omega
    have hdb : b.depth + 1 < d := by
      simp only [Parts.depth] at hdep; omega
    obtain ⟨e, rfl⟩ : ∃ e, d = e + 1 := ⟨d - 1, by omega⟩
    have hb0 := parts_pos hbn hfb
    have key : ∀ (k : Nat) (hi : Item) (h F : Nat), hd = some hi → Nested.firstLayer u hi = some h → h < a + b.layers.length → Chain u L lo hd (some (.model k)) r last (a + b.layers.length) →
        Nested.setLoop (Nested.setTrainable t (e + 1)) hd (F + (count r + 1)) last (u, L) =
          Nested.setLoop (Nested.setTrainable t (e + 1)) hd (F + 1) (some (.model k)) (setT (hits (a + b.layers.length) (r.reached false)) t u, L) :=
      fun k hi h F h1 h2 h3 C => by
        rw [show F + (count r + 1) = F + 1 + count r by omega]
        exact (ihr (lo := lo) (hd := hd) hfr hdr hn').1 _ hi h (F + 1) C h1 h2 h3
    refine ⟨fun p hi h F C h1 h2 h3 => ?_, fun F C _ => ?_⟩
    · obtain ⟨k, k1, k2, k3, c1, c2, c3⟩ := C
      obtain ⟨u1, hu1⟩ : ∃ u1, u1 = setT (hits (a + b.layers.length) (r.reached false)) t u := ⟨_, rfl⟩
      rw [show count (Parts.block b r) = count r + 1 from rfl, key k hi h F h1 h2 (by omega) c3, ← hu1]
      rw [loop_step (u' := setT (hits a (b.reached true)) t u1) (f := a) (p := some p) ?_ ?_ (by rw [hu1]; exact k3) c1, hu1, setT_setT]
      · congr 3
        funext l
        rw [show (Parts.block b r).reached false = b.reached true ++ r.reached false from rfl, hits_append, reached_length]
      · rw [h1]
        intro hc
        cases hc
        have h4 : (u.nets k).first = some h := h2
        rw [k3] at h4
        cases h4
        omega
      · show Nested.setLoop (Nested.setTrainable t e) (L.first k) (u1.layerNext + u1.netNext + 1) (L.last k) (u1, L) = _
        have hx : u1.layerNext = u.layerNext := by rw [hu1]; rfl
        have hc := count_le hfb
        rw [show u1.layerNext + u1.netNext + 1 = (u1.layerNext + u1.netNext + 1 - count b) + count b by omega]
        exact (ihb (lo := lo) hfb (by omega) (by rw [hx]; omega)).2 _ (by rw [hu1]; exact c2.set _ _ hfb) hbn
    · obtain ⟨k, k1, k2, k3, c1, c2, c3⟩ := C
      have c1' : hd = some (.model k) := c1
      rw [show count (Parts.block b r) = count r + 1 from rfl, key k (.model k) a F c1' k3 (by omega) c3, c1', loop_stop]
      congr 2
      congr 1
      funext l
      rw [show (Parts.block b r).reached true = (b.layers.map fun _ => false) ++ r.reached false from rfl, hits_append, List.length_map]
      rw [hits_false _ _ _ _ rfl]
      simp

/-- `SetTrainable` of a model of blocks, in any later state -/
theorem setTrainable_nested (t : Bool) {ps : Parts T} (hf : ps.Full) {w w' : World T} {L : Links} {m b n : Nat} (hn : ps.depth + 1 < n)
    (h1 : L.first m = some (.layer b)) (C : Chain w L (m + 1) (some (.layer b)) (some (.layer b)) ps (L.last m) (b + 1))
    (h2 : w.netNext ≤ w'.netNext) (h3 : ∀ k, k ≠ m → w'.nets k = w.nets k) (h4 : b + 1 + ps.layers.length ≤ w'.layerNext) :
    Nested.setTrainable t n (.model m) (w', L) = .ok () (setT (hits (b + 1) (ps.reached false)) t w', L) := by
  obtain ⟨e, rfl⟩ : ∃ e, n = e + 1 := ⟨n - 1, by omega⟩
  show Nested.setLoop (Nested.setTrainable t e) (L.first m) (w'.layerNext + w'.netNext + 1) (L.last m) (w', L) = _
  have hc := count_le hf
  have C' : Chain w' L (m + 1) (some (.layer b)) (some (.layer b)) ps (L.last m) (b + 1) :=
    C.keep hf h2 (fun k hk _ => ⟨by rw [h3 k (by omega)], rfl, rfl⟩) fun _ _ _ _ => rfl
  rw [h1, show w'.layerNext + w'.netNext + 1 = (w'.layerNext + w'.netNext - count ps + 1) + count ps by omega]
  rw [(set_parts t ps (lo := m + 1) hf (by omega) h4).1 (.layer b) (.layer b) b _ C' rfl rfl (by omega), loop_stop]

/-! ### `Save` and `Load` -/

/-- as `SameOut`, for functions that read or write a stream too -/
def SameOutS {σ : Type} (m : Nat) : Out (World T × σ) Unit → Out (World T × σ) Unit → Prop
  | .ok _ s, .ok _ s' => s'.2 = s.2 ∧ Same m s.1 s'.1
  | .err e s, .err e' s' => e' = e ∧ s'.2 = s.2 ∧ Same m s.1 s'.1
  | .panic, .panic => True
  | _, _ => False

def SeesS {σ : Type} (m : Nat) (c : World T × σ → Out (World T × σ) Unit) : Prop :=
  ∀ w w' x, Same m w w' → SameOutS m (c (w, x)) (c (w', x))

theorem SeesS.bind {σ : Type} {m : Nat} {o o' : Out (World T × σ) Unit} {f : World T × σ → Out (World T × σ) Unit}
    (h : SameOutS m o o') (hf : SeesS m f) : SameOutS m (o.bind fun _ => f) (o'.bind fun _ => f) := by
  cases o with
  | ok x v =>
    cases o' with
    | ok x' v' =>
      obtain ⟨v1, v2⟩ := v
      obtain ⟨v1', v2'⟩ := v'
      obtain ⟨h1, h2⟩ := h
      cases h1
      exact hf _ _ _ h2
    | err _ _ => exact h.elim
    | panic => exact h.elim
  | err x v =>
    cases o' with
    | err x' v' => exact h
    | ok _ _ => exact h.elim
    | panic => exact h.elim
  | panic =>
    cases o' with
    | panic => trivial
    | ok _ _ => exact h.elim
    | err _ _ => exact h.elim

theorem same_modW {σ : Type} {m : Nat} {w w' : World T} (h : Same m w w') (l : Nat) (f : Layer T → Layer T) (x : σ) :
    ∃ v v', LayerM.modW l f (w, x) = (v, x) ∧ LayerM.modW l f (w', x) = (v', x) ∧ Same m v v' :=
  ⟨_, _, rfl, rfl, h.store, h.nodeNext, by show (fun k => _) = (fun k => _); rw [h.layers], h.layerNext, h.rnd, h.draws, h.net⟩

section
variable [Bin T]

theorem sees_saveTensor (m : Nat) (t : Option Nat) : SeesS m (LayerM.saveTensor (T := T) t) := by
  intro w w' x h
  cases t with
  | none => exact ⟨rfl, h⟩
  | some n =>
    unfold LayerM.saveTensor
    simp only [h.store]
    cases (w.store.nodes n).mat.save w.store.heap x with
    | ok _ s => exact ⟨rfl, h⟩
    | err e s => exact ⟨rfl, rfl, h⟩
    | panic => trivial

theorem sees_loadTensor (m : Nat) (t : Option Nat) : SeesS m (LayerM.loadTensor (T := T) t) := by
  intro w w' x h
  cases t with
  | none => exact ⟨rfl, h⟩
  | some n =>
    unfold LayerM.loadTensor
    simp only [h.store]
    cases (w.store.nodes n).mat.load w.store.heap x with
    | ok _ s => exact ⟨rfl, ⟨rfl, h.nodeNext, h.layers, h.layerNext, h.rnd, h.draws, h.net⟩⟩
    | err e s => exact ⟨rfl, rfl, ⟨rfl, h.nodeNext, h.layers, h.layerNext, h.rnd, h.draws, h.net⟩⟩
    | panic => trivial

theorem sees_layerSave (m f : Nat) : ∀ l, SeesS m (LayerM.save (T := T) f l) := by
  induction f with
  | zero => exact fun l w w' x h => trivial
  | succ f ih =>
    intro l w w' x h
    obtain ⟨v, v', e1, e2, h'⟩ := same_modW h l (fun x => { x with saved := true }) x
    rw [LayerM.save, LayerM.save]
    simp only [e1, e2, h.layers]
    split
    · exact ⟨rfl, h⟩
    · split
      · exact SeesS.bind (ih _ _ _ _ h') (ih _)
      · refine SeesS.bind ?_ fun w w' x h => SeesS.bind (sees_saveTensor m _ _ _ _ h) (sees_saveTensor m _)
        split
        · exact ih _ _ _ _ h'
        · exact ⟨rfl, h'⟩

theorem sees_layerLoad (m f : Nat) : ∀ l, SeesS m (LayerM.load (T := T) f l) := by
  induction f with
  | zero => exact fun l w w' x h => trivial
  | succ f ih =>
    intro l w w' x h
    obtain ⟨v, v', e1, e2, h'⟩ := same_modW h l (fun x => { x with loaded := true }) x
    rw [LayerM.load, LayerM.load]
    simp only [e1, e2, h.layers]
    split
    · exact ⟨rfl, h⟩
    · split
      · exact SeesS.bind (ih _ _ _ _ h') (ih _)
      · refine SeesS.bind ?_ fun w w' x h => SeesS.bind (sees_loadTensor m _ _ _ _ h) (sees_loadTensor m _)
        split
        · exact ih _ _ _ _ h'
        · exact ⟨rfl, h'⟩

theorem sees_save (m : Nat) : SeesS m (NetM.save (T := T) m) := by
  intro w w' x h
  unfold NetM.save
  simp only [h.net, h.layerNext]
  split
  · trivial
  · exact sees_layerSave m _ _ _ _ _ h

theorem sees_load (m : Nat) : SeesS m (NetM.load (T := T) m) := by
  intro w w' x h
  unfold NetM.load
  simp only [h.net, h.layerNext]
  split
  · trivial
  · exact sees_layerLoad m _ _ _ _ _ h

/-- the same result, in states that agree on everything but models other than `m` -/
def SameSeen {β : Type} (m : Nat) : Option (β × World T) → Option (β × World T) → Prop
  | some (a, w), some (a', w') => a' = a ∧ Same m w w'
  | none, none => True
  | _, _ => False

theorem Sees.seen {α : Type} {m : Nat} {c : Run T α} (hc : Sees m c) (f : α → Seen T) {w w' : World T} (h : Same m w w') :
    SameSeen m (Spec.seen f (c w)) (Spec.seen f (c w')) := by
  have H := hc w w' h
  cases e : c w with
  | ok a v =>
    cases e' : c w' with
    | ok a' v' => rw [e, e'] at H; exact ⟨by rw [H.1], H.2⟩
    | err _ _ => rw [e, e'] at H; exact H.elim
    | panic => rw [e, e'] at H; exact H.elim
  | err a v =>
    cases e' : c w' with
    | err a' v' => rw [e, e'] at H; exact ⟨by rw [H.1], H.2⟩
    | ok _ _ => rw [e, e'] at H; exact H.elim
    | panic => rw [e, e'] at H; exact H.elim
  | panic =>
    cases e' : c w' with
    | panic => trivial
    | ok _ _ => rw [e, e'] at H; exact H.elim
    | err _ _ => rw [e, e'] at H; exact H.elim

theorem sameSeen_run (m : Nat) (c : Method T) {w w' : World T} (h : Same m w w') : SameSeen m (c.run m w) (c.run m w') := by
  cases c with
  | compile => exact sees_compile.seen _ h
  | compileBackPropagation => exact sees_compileBP.seen _ h
  | predict t => exact (sees_predict t).seen _ h
  | resetIS => exact sees_resetIS.seen _ h
  | trainOne x y a p => exact (sees_trainOne x y a p).seen _ h
  | train xs ys n b a p draw => exact (sees_train xs ys n b a p draw).seen _ h
  | string => exact sees_string.seen _ h
  | resetSave => exact sees_netResetSave.seen _ h
  | resetLoad => exact sees_netResetLoad.seen _ h
  | save out =>
    have H := sees_save m w w' out h
    show SameSeen m (match NetM.save m (w, out) with | .ok _ s => _ | .err e s => _ | .panic => _)
      (match NetM.save m (w', out) with | .ok _ s => _ | .err e s => _ | .panic => _)
    generalize NetM.save m (w, out) = o at H ⊢
    generalize NetM.save m (w', out) = o' at H ⊢
    cases o <;> cases o' <;> first | exact H.elim | trivial | skip
    · exact ⟨by rw [H.1], H.2⟩
    · exact ⟨by rw [H.1, H.2.1], H.2.2⟩
  | load bytes =>
    have H := sees_load m w w' bytes h
    show SameSeen m (match NetM.load m (w, bytes) with | .ok _ s => _ | .err e s => _ | .panic => _)
      (match NetM.load m (w', bytes) with | .ok _ s => _ | .err e s => _ | .panic => _)
    generalize NetM.load m (w, bytes) = o at H ⊢
    generalize NetM.load m (w', bytes) = o' at H ⊢
    cases o <;> cases o' <;> first | exact H.elim | trivial | skip
    · exact ⟨by rw [H.1], H.2⟩
    · exact ⟨by rw [H.1, H.2.1], H.2.2⟩
  | zeros shape => exact (Sees.zeros shape).seen _ h
  | setValue p v => exact (Sees.setValue p v).seen _ h
  | buildGraph t => exact (Sees.buildGraph t).seen _ h

theorem sameSeen_calls (m : Nat) (cs : List (Method T)) : ∀ {w w' : World T}, Same m w w' → SameSeen m (runMethods m cs w) (runMethods m cs w') := by
  induction cs with
  | nil => exact fun h => ⟨rfl, h⟩
  | cons c cs ih =>
    intro w w' h
    have H := sameSeen_run m c h
    show SameSeen m ((c.run m w).bind _) ((c.run m w').bind _)
    generalize c.run m w = o at H ⊢
    generalize c.run m w' = o' at H ⊢
    cases o with
    | none =>
      cases o' with
      | none => trivial
      | some _ => exact H.elim
    | some x =>
      cases o' with
      | none => exact H.elim
      | some x' =>
        obtain ⟨a, v⟩ := x
        obtain ⟨a', v'⟩ := x'
        obtain ⟨h1, h2⟩ := H
        cases h1
        have K := ih h2
        show SameSeen m ((runMethods m cs v).map _) ((runMethods m cs v').map _)
        generalize runMethods m cs v = o at K ⊢
        generalize runMethods m cs v' = o' at K ⊢
        cases o with
        | none =>
          cases o' with
          | none => trivial
          | some _ => exact K.elim
        | some y =>
          cases o' with
          | none => exact K.elim
          | some y' =>
            obtain ⟨b, z⟩ := y
            obtain ⟨b', z'⟩ := y'
            obtain ⟨k1, k2⟩ := K
            cases k1
            exact ⟨rfl, k2⟩

end

end Godeep
