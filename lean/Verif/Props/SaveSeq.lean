import Verif.Props.SaveLoad
import Verif.Props.Predict
/-
  C48, C49: saving and loading sequential models.
-/
set_option linter.unusedSectionVars false

namespace Godeep.Props
open Godeep Spec GoNum

variable {T : Type} [GoNum T]

theorem parents_chain {b n : Nat} {w : World T} (C : PreChain b n w)
    (hk : ∀ k ≤ n, ∀ l1 l2 d, (w.layers (b + k)).kind ≠ .concat l1 l2 d) :
    parents w b = [] ∧ ∀ k < n, parents w (b + (k + 1)) = [b + k] := by
  have hpar : ∀ j ≤ n, parents w (b + j) = (w.layers (b + j)).pre.toList := fun j hj => by
    unfold parents
    split
    · next e => exact (hk j hj _ _ _ e).elim
    · rfl
  refine ⟨?_, fun k hk => ?_⟩
  · have := hpar 0 (Nat.zero_le _)
    rw [Nat.add_zero] at this
    rw [this, C.first]; rfl
  · rw [hpar (k + 1) (by omega), show b + (k + 1) = b + 1 + k by omega, C.pre k hk]; rfl

/-- the layers of a chain are visited from the first to the last -/
theorem visit_chain {par : Nat → List Nat} {b : Nat} : ∀ (n d : Nat) (fl : Nat → Bool), par b = [] →
    (∀ k < n, par (b + (k + 1)) = [b + k]) → (∀ k ≤ n, fl (b + k) = false) →
    visit par (n + 1 + d) (b + n) fl = List.range' b (n + 1) := by
  intro n
  induction n with
  | zero =>
    intro d fl h0 _ hf
    rw [show 0 + 1 + d = d + 1 by omega, visit]
    have := hf 0 (le_refl _)
    rw [if_neg (by rw [this]; simp), Nat.add_zero, h0]
    rfl
  | succ n ih =>
    intro d fl h0 hp hf
    rw [show n + 1 + 1 + d = (n + 1 + d) + 1 by omega, visit]
    have := hf (n + 1) (le_refl _)
    rw [if_neg (by rw [this]; simp), hp n (by omega)]
    simp only [visits, List.append_nil]
    rw [ih d _ h0 (fun k hk => hp k (by omega)) (fun k hk => ?_)]
    · simp [List.range'_concat]
    · simp only [mark, hf k (by omega), Bool.false_or]
      simp; omega

theorem resetSave_chain {b : Nat} : ∀ (n f : Nat) (w : World T), PreChain b n w → n < f →
    LayerM.resetSave f (b + n) w = .ok () { w with layers := fun k =>
      if b ≤ k ∧ k ≤ b + n then { w.layers k with saved := false } else w.layers k } := by
  intro n
  induction n with
  | zero =>
    intro f w C hf
    obtain ⟨f, rfl⟩ : ∃ g, f = g + 1 := ⟨f - 1, by omega⟩
    show (match ((updL b (fun x => { x with saved := false }) w).layers b).pre with
      | some p => LayerM.resetSave f p
      | none => pure () : Run T Unit) (updL b (fun x => { x with saved := false }) w) = _
    have : ((updL b (fun x => { x with saved := false }) w).layers b).pre = none := by
      simp [updL, C.first]
    rw [this]
    show Out.ok () _ = _
    congr 1
    unfold updL
    congr 1
    funext k
    by_cases h : k = b
    · subst h; simp
    · rw [if_neg h, if_neg (by omega)]
  | succ n ih =>
    intro f w C hf
    obtain ⟨f, rfl⟩ : ∃ g, f = g + 1 := ⟨f - 1, by omega⟩
    show (match ((updL (b + (n + 1)) (fun x => { x with saved := false }) w).layers (b + (n + 1))).pre with
      | some p => LayerM.resetSave f p
      | none => pure () : Run T Unit) (updL (b + (n + 1)) (fun x => { x with saved := false }) w) = _
    have : ((updL (b + (n + 1)) (fun x => { x with saved := false }) w).layers (b + (n + 1))).pre = some (b + n) := by
      have := C.pre n (by omega)
      rw [show b + 1 + n = b + (n + 1) by omega] at this
      simp [updL, this]
    rw [this]
    show LayerM.resetSave f (b + n) _ = _
    rw [ih f _ ⟨?_, fun k hk => ?_⟩ (by omega)]
    · congr 1
      unfold updL
      congr 1
      funext k
      dsimp only
      by_cases h : k = b + (n + 1)
      · subst h; rw [if_neg (by omega), if_pos rfl, if_pos (by omega)]
      · by_cases h2 : b ≤ k ∧ k ≤ b + n
        · rw [if_pos h2, if_neg h, if_pos (by omega)]
        · rw [if_neg h2, if_neg h, if_neg (by omega)]
    · simp only [updL]; split
      · exact C.first
      · exact C.first
    · simp only [updL]; split
      · exact C.pre k (by omega)
      · exact C.pre k (by omega)

theorem resetLoad_chain {b : Nat} : ∀ (n f : Nat) (w : World T), PreChain b n w → n < f →
    LayerM.resetLoad f (b + n) w = .ok () { w with layers := fun k =>
      if b ≤ k ∧ k ≤ b + n then { w.layers k with loaded := false } else w.layers k } := by
  intro n
  induction n with
  | zero =>
    intro f w C hf
    obtain ⟨f, rfl⟩ : ∃ g, f = g + 1 := ⟨f - 1, by omega⟩
    show (match ((updL b (fun x => { x with loaded := false }) w).layers b).pre with
      | some p => LayerM.resetLoad f p
      | none => pure () : Run T Unit) (updL b (fun x => { x with loaded := false }) w) = _
    have : ((updL b (fun x => { x with loaded := false }) w).layers b).pre = none := by
      simp [updL, C.first]
    rw [this]
    show Out.ok () _ = _
    congr 1
    unfold updL
    congr 1
    funext k
    by_cases h : k = b
    · subst h; simp
    · rw [if_neg h, if_neg (by omega)]
  | succ n ih =>
    intro f w C hf
    obtain ⟨f, rfl⟩ : ∃ g, f = g + 1 := ⟨f - 1, by omega⟩
    show (match ((updL (b + (n + 1)) (fun x => { x with loaded := false }) w).layers (b + (n + 1))).pre with
      | some p => LayerM.resetLoad f p
      | none => pure () : Run T Unit) (updL (b + (n + 1)) (fun x => { x with loaded := false }) w) = _
    have : ((updL (b + (n + 1)) (fun x => { x with loaded := false }) w).layers (b + (n + 1))).pre = some (b + n) := by
      have := C.pre n (by omega)
      rw [show b + 1 + n = b + (n + 1) by omega] at this
      simp [updL, this]
    rw [this]
    show LayerM.resetLoad f (b + n) _ = _
    rw [ih f _ ⟨?_, fun k hk => ?_⟩ (by omega)]
    · congr 1
      unfold updL
      congr 1
      funext k
      dsimp only
      by_cases h : k = b + (n + 1)
      · subst h; rw [if_neg (by omega), if_pos rfl, if_pos (by omega)]
      · by_cases h2 : b ≤ k ∧ k ≤ b + n
        · rw [if_pos h2, if_neg h, if_pos (by omega)]
        · rw [if_neg h2, if_neg h, if_neg (by omega)]
    · simp only [updL]; split
      · exact C.first
      · exact C.first
    · simp only [updL]; split
      · exact C.pre k (by omega)
      · exact C.pre k (by omega)

/-- marks of a model that has just been compiled -/
theorem marks_new {shape : List Nat} {ls : List (LSpec T)} {m b inp0 : Nat} {m0 : Mat} {ops : List (Op T)} {out : Nat} {outM : Mat}
    {K : Ptr → T → Prop} {w wa wb w' : World T} (S : SeqNew shape ls m b inp0 m0 w)
    (R : CompileRun shape ls m b inp0 m0 ops out outM K w wa wb w') {k : Nat} (hk : k ≤ ls.length) :
    (w'.layers (b + k)).saved = false ∧ (w'.layers (b + k)).loaded = false ∧ (w'.layers (b + k)).bp = false ∧
    (w'.layers (b + k)).trainable = (if k = 0 then false else (ls.getD (k - 1) .flatten).trainable) := by
  rw [R.layers]
  obtain ⟨_, _, _, a4, a5, a6, a7, _⟩ := R.all.same (b + k)
  rw [a4, a5, a6, a7]
  obtain ⟨wc, Rf, rfl⟩ := R.refs
  obtain ⟨x1, x2, x3, e⟩ := Rf.same (b + k)
  show (wc.layers (b + k)).saved = false ∧ (wc.layers (b + k)).loaded = false ∧ (wc.layers (b + k)).bp = false ∧
    (wc.layers (b + k)).trainable = _
  rw [e]
  rcases Nat.eq_zero_or_pos k with h | h
  · subst h
    obtain ⟨dd, hd⟩ := S.lay0
    rw [Nat.add_zero, hd]
    exact ⟨rfl, rfl, rfl, rfl⟩
  · have hk1 : k - 1 < ls.length := by omega
    obtain ⟨o, ho⟩ := S.layk (k - 1) ls[k - 1] (by simp [hk1])
    rw [show b + 1 + (k - 1) = b + k by omega] at ho
    rw [ho, if_neg (by omega)]
    refine ⟨rfl, rfl, rfl, ?_⟩
    simp only [fresh]
    simp [hk1]

/-- the values of the parameters of layer `k` of a chain that starts at `b` -/
def seqVal (b : Nat) (pv : List (List (STensor T))) (k : Nat) : List (STensor T) := if k = b then [] else pv.getD (k - (b + 1)) []

theorem flatMap_seqVal (b : Nat) (pv : List (List (STensor T))) :
    (List.range' b (pv.length + 1)).flatMap (seqVal b pv) = pv.flatten := by
  rw [List.range'_succ, List.flatMap_cons, seqVal, if_pos rfl, List.nil_append, List.range'_eq_map_range, List.flatMap_map]
  have : ∀ k, seqVal b pv (b + 1 + k) = pv.getD k [] := fun k => by
    rw [seqVal, if_neg (by omega)]; congr 1; omega
  simp only [this]
  rw [List.flatMap]
  congr 1
  apply List.ext_getElem
  · simp
  · intro i h1 h2; simp [List.getElem?_eq_getElem h2]

variable {w0 w1 : World T} {m : Nat} {shape : List Nat} {ls : List (LSpec T)} {d : CData T} {a : World T}

theorem live_acyclic (M : Made w0 w1 m shape ls d) (L : Live w0 w1 m d a) : Acyclic a (d.b + ls.length) := by
  have hp := parents_chain (L.comp M).chain (L.not_concat M)
  refine ⟨fun k => k - d.b, ?_, fun k hk p hp' => ?_⟩
  · have := L.layerNext
    rw [M.next] at this
    show d.b + ls.length - d.b ≤ a.layerNext
    omega
  · obtain ⟨h1, h2⟩ := (L.feeds M).1 hk
    obtain ⟨j, rfl⟩ : ∃ j, k = d.b + j := ⟨k - d.b, by omega⟩
    cases j with
    | zero => rw [Nat.add_zero, hp.1] at hp'; simp at hp'
    | succ j =>
      rw [hp.2 j (by omega)] at hp'
      simp at hp'
      show p - d.b < d.b + (j + 1) - d.b
      omega

theorem live_own (M : Made w0 w1 m shape ls d) (L : Live w0 w1 m d a) {pv : List (List (STensor T))} (hp : HasParams a m pv)
    {k : Nat} (hk : Feeds a (d.b + ls.length) k) : List.Forall₂ (Holds a.store.heap) (ownTensors a k) (seqVal d.b pv k) := by
  obtain ⟨h1, h2⟩ := (L.feeds M).1 hk
  obtain ⟨j, rfl⟩ : ∃ j, k = d.b + j := ⟨k - d.b, by omega⟩
  cases j with
  | zero =>
    rw [Nat.add_zero, L.own_first M, seqVal, if_pos rfl]
    exact .nil
  | succ j =>
    rw [L.own_eq M (by omega), seqVal, if_neg (by omega)]
    have h3 := (L.hasParams M).1 hp
    rw [(L.comp M).par, List.forall₂_map_left_iff, List.forall₂_iff_get] at h3
    have hj : j < (List.range ls.length).length := by rw [List.length_range]; omega
    have := h3.2 j hj (by rw [← h3.1]; exact hj)
    simp only [List.get_eq_getElem, List.getElem_range] at this
    rw [show d.b + (j + 1) = d.b + 1 + j by omega, show d.b + 1 + j - (d.b + 1) = j by omega, List.getD_eq_getElem?_getD,
      List.getElem?_eq_getElem (by rw [← h3.1]; exact hj)]
    exact this

theorem live_len (M : Made w0 w1 m shape ls d) (L : Live w0 w1 m d a) {pv : List (List (STensor T))} (hp : HasParams a m pv) :
    pv.length = ls.length := by
  have h3 := (L.hasParams M).1 hp
  rw [(L.comp M).par] at h3
  simpa using h3.length_eq.symm

theorem live_visit (M : Made w0 w1 m shape ls d) (L : Live w0 w1 m d a) {fl : Nat → Bool}
    (hf : ∀ k, Feeds a (d.b + ls.length) k → fl k = false) :
    visit (parents a) (a.layerNext + 1) (d.b + ls.length) fl = List.range' d.b (ls.length + 1) := by
  have hp := parents_chain (L.comp M).chain (L.not_concat M)
  have := L.layerNext
  rw [M.next] at this
  obtain ⟨x, hx⟩ : ∃ x, a.layerNext + 1 = ls.length + 1 + x := ⟨a.layerNext - ls.length, by omega⟩
  rw [hx]
  exact visit_chain _ _ _ hp.1 hp.2 fun k hk => hf _ ((L.feeds M).2 ⟨by omega, by omega⟩)

section
variable [Bin T]

/-- `Save` when no layer is marked as saved -/
theorem live_save (hf : Bin.fixed T = true) (M : Made w0 w1 m shape ls d) (L : Live w0 w1 m d a)
    (hs : SavedIs false a (d.b + ls.length)) {pv : List (List (STensor T))} (hp : HasParams a m pv) (out : List Byte) :
    ∃ bytes a', NetM.save m (a, ⟨out, none⟩) = .ok () (a', ⟨out ++ bytes, none⟩) ∧ EncodesAll pv.flatten bytes ∧ HasParams a' m pv := by
  have C := L.comp M
  obtain ⟨rank, hr, hrk⟩ := live_acyclic M L
  have e := save_visit hf (rank := rank) (a.layerNext + 1) (d.b + ls.length) a out (by omega)
    (fun j hj => hrk j (feeds_iff.2 hj)) (fun j hj => own_pos (live_own M L hp (feeds_iff.2 hj)))
  rw [live_visit M L hs] at e
  refine ⟨_, _, by simp only [NetM.save, C.last]; exact e, ?_, ?_⟩
  · rw [← flatMap_seqVal d.b pv, live_len M L hp]
    refine encodesAll_layers _ fun k hk => live_own M L hp ((L.feeds M).2 ?_)
    rw [List.mem_range'_1] at hk; omega
  · have s : Step w0 w1 m a _ := .use (.save (k := ⟨out, none⟩) (k' := ⟨_, none⟩) (Or.inl ⟨(), by simp only [NetM.save, C.last]; exact e⟩))
    exact ((live_step M L s).hasParams M).2 ((L.hasParams M).1 hp)

/-- `Load` when no layer is marked as loaded -/
theorem live_load (hf : Bin.fixed T = true) (M : Made w0 w1 m shape ls d) (L : Live w0 w1 m d a)
    (hs : LoadedIs false a (d.b + ls.length)) {pv : List (List (STensor T))} (hl : pv.length = ls.length)
    (hsh : ∀ k s, ls[k]? = some s → (pv.getD k []).map STensor.shape = s.paramShapes (outShapes (ls.take k) shape))
    {bytes : List Byte} (hb : EncodesAll pv.flatten bytes) (rest : List Byte) :
    ∃ a', NetM.load m (a, bytes ++ rest) = .ok () (a', rest) ∧ HasParams a' m pv := by
  have C := L.comp M
  obtain ⟨qv, hq, hql, hqs⟩ := L.someParams M
  have hd : Distinct a (d.b + ls.length) := by
    have hpd := C.pdist
    rw [C.par] at hpd
    have key : ∀ i < ls.length, ownTensors a (d.b + (i + 1)) = layerParams a (d.b + 1 + i) := fun i hi => by
      rw [L.own_eq M (by omega), show d.b + (i + 1) = d.b + 1 + i by omega]
    have hidx : ∀ {k}, Feeds a (d.b + ls.length) k → k = d.b ∨ ∃ i < ls.length, k = d.b + (i + 1) := fun {k} hk => by
      obtain ⟨h1, h2⟩ := (L.feeds M).1 hk
      rcases Nat.eq_or_lt_of_le h1 with h | h
      · exact Or.inl h.symm
      · exact Or.inr ⟨k - d.b - 1, by omega, by omega⟩
    rw [List.nodup_flatMap, List.pairwise_flatten] at hpd
    obtain ⟨p1, p2, p3⟩ := hpd
    constructor
    · intro k hk
      rcases hidx hk with rfl | ⟨i, hi, rfl⟩
      · rw [L.own_first M]; simp
      · rw [key i hi, List.nodup_flatMap]
        exact ⟨fun x hx => p1 x (by simp only [List.mem_flatten, List.mem_map, List.mem_range]; exact ⟨_, ⟨i, hi, rfl⟩, hx⟩),
          p2 _ (by simp only [List.mem_map, List.mem_range]; exact ⟨i, hi, rfl⟩)⟩
    · intro j k hj hk hne x hx y hy q hqx hqy
      rw [List.pairwise_map] at p3
      have p4 : ∀ i j, i < j → j < ls.length → ∀ x ∈ layerParams a (d.b + 1 + i), ∀ y ∈ layerParams a (d.b + 1 + j),
          List.Disjoint x.ops y.ops := fun i j hij hj => by
        have := List.pairwise_iff_getElem.1 p3 i j (by simp; omega) (by simp; omega) hij
        simpa using this
      rcases hidx hj with rfl | ⟨i, hi, rfl⟩
      · rw [L.own_first M] at hx; simp at hx
      · rcases hidx hk with rfl | ⟨i', hi', rfl⟩
        · rw [L.own_first M] at hy; simp at hy
        · rw [key i hi] at hx
          rw [key i' hi'] at hy
          rcases Nat.lt_trichotomy i i' with h | h | h
          · exact p4 i i' h hi' x hx y hy hqx hqy
          · omega
          · exact p4 i' i h hi y hy x hx hqy hqx
  obtain ⟨a', e, h1, _⟩ := load_core hf C.last (live_acyclic M L) hs hd (P := seqVal d.b pv) (Q := seqVal d.b qv) (fun k hk => by
    refine ⟨live_own M L hq hk, ?_⟩
    unfold seqVal
    split
    · rfl
    · next hne =>
      obtain ⟨g1, g2⟩ := (L.feeds M).1 hk
      have hi : k - (d.b + 1) < ls.length := by omega
      rw [hqs _ _ (List.getElem?_eq_getElem hi), hsh _ _ (List.getElem?_eq_getElem hi)]) (bytes := bytes)
    (by rw [live_visit M L hs, ← hl, flatMap_seqVal]; exact hb) rest
  refine ⟨a', e, ?_⟩
  have s : Step w0 w1 m a a' := .use (.load (r := bytes ++ rest) (r' := rest) (Or.inl ⟨(), e⟩))
  have L' := live_step M L s
  rw [L'.hasParams M, (L'.comp M).par, List.forall₂_map_left_iff, List.forall₂_iff_get]
  refine ⟨by simp [hl], fun i h1' h2' => ?_⟩
  have hi : i < ls.length := by simpa using h1'
  have := h1 (d.b + (i + 1)) ((L.feeds M).2 ⟨by omega, by omega⟩)
  rw [L'.own_eq M (by omega), seqVal, if_neg (by omega), show d.b + (i + 1) - (d.b + 1) = i by omega, List.getD_eq_getElem?_getD,
    List.getElem?_eq_getElem h2', show d.b + (i + 1) = d.b + 1 + i by omega] at this
  simpa using this


omit [Bin T] in
theorem live_resetSave (M : Made w0 w1 m shape ls d) (L : Live w0 w1 m d a) {pv : List (List (STensor T))} (hp : HasParams a m pv) :
    ∃ a', NetM.resetSave m a = .ok () a' ∧ SavedIs false a' (d.b + ls.length) ∧ HasParams a' m pv := by
  have C := L.comp M
  have hln := L.layerNext
  rw [M.next] at hln
  have e : NetM.resetSave m a = .ok () { a with layers := fun k =>
      if d.b ≤ k ∧ k ≤ d.b + ls.length then { a.layers k with saved := false } else a.layers k } := by
    show (Run.deref (a.nets m).last >>= fun last => (do let n ← Run.fuel; LayerM.resetSave n last) : Run T Unit) a = _
    rw [C.last]
    exact resetSave_chain ls.length (a.layerNext + 1) a C.chain (by omega)
  refine ⟨_, e, ?_, ?_⟩
  · intro k hk
    have L' := live_step M L (.use (.resetSave e))
    obtain ⟨h1, h2⟩ := (L'.feeds M).1 hk
    show (if d.b ≤ k ∧ k ≤ d.b + ls.length then { a.layers k with saved := false } else a.layers k).saved = false
    rw [if_pos ⟨h1, h2⟩]
  · exact ((live_step M L (.use (.resetSave e))).hasParams M).2 ((L.hasParams M).1 hp)

omit [Bin T] in
theorem live_resetLoad (M : Made w0 w1 m shape ls d) (L : Live w0 w1 m d a) :
    ∃ a', NetM.resetLoad m a = .ok () a' ∧ LoadedIs false a' (d.b + ls.length) := by
  have C := L.comp M
  have hln := L.layerNext
  rw [M.next] at hln
  have e : NetM.resetLoad m a = .ok () { a with layers := fun k =>
      if d.b ≤ k ∧ k ≤ d.b + ls.length then { a.layers k with loaded := false } else a.layers k } := by
    show (Run.deref (a.nets m).last >>= fun last => (do let n ← Run.fuel; LayerM.resetLoad n last) : Run T Unit) a = _
    rw [C.last]
    exact resetLoad_chain ls.length (a.layerNext + 1) a C.chain (by omega)
  refine ⟨_, e, ?_⟩
  intro k hk
  have L' := live_step M L (.use (.resetLoad e))
  obtain ⟨h1, h2⟩ := (L'.feeds M).1 hk
  show (if d.b ≤ k ∧ k ≤ d.b + ls.length then { a.layers k with loaded := false } else a.layers k).loaded = false
  rw [if_pos ⟨h1, h2⟩]

/-- C48 and C49: a sequential model of any layers that fit together, in any state after it was compiled
(it may have been saved, loaded and used before).  `ResetSave` and `Save` write all weights and biases,
layer by layer; `ResetLoad` and `Load` of any bytes that hold tensors of the right shapes give the model
exactly these weights and biases and consume exactly these bytes. -/
theorem C48_sequential (hf : Bin.fixed T = true) (hlaw : eq (add zero one) (zero : T) = false) {shape : List Nat} {ls : List (LSpec T)}
    (hfit : Fits ls shape) {w0 : World T} (hpos : 0 < w0.store.heap.next) :
    ∃ m w1, compiled shape ls w0 = .ok m w1 ∧ ∀ a, Steps w0 w1 m w1 a →
      (∀ pv, HasParams a m pv → ∃ a', NetM.resetSave m a = .ok () a' ∧ HasParams a' m pv ∧ ∀ out, ∃ bytes a'',
        NetM.save m (a', ⟨out, none⟩) = .ok () (a'', ⟨out ++ bytes, none⟩) ∧ EncodesAll pv.flatten bytes ∧
        HasParams a'' m pv ∧ Steps w0 w1 m w1 a'') ∧
      (∀ pv, pv.length = ls.length →
        (∀ k s, ls[k]? = some s → (pv.getD k []).map STensor.shape = s.paramShapes (outShapes (ls.take k) shape)) →
        ∀ bytes, EncodesAll pv.flatten bytes → ∃ a', NetM.resetLoad m a = .ok () a' ∧ ∀ rest, ∃ a'',
          NetM.load m (a', bytes ++ rest) = .ok () (a'', rest) ∧ HasParams a'' m pv ∧ Steps w0 w1 m w1 a'') := by
  obtain ⟨m, w1, e, d, _, _, _, M, _⟩ := wp_total (compiled_ok hlaw hpos (fun s _ => ffGood_all s) hfit)
  refine ⟨m, w1, e, fun a hst => ⟨fun pv hp => ?_, fun pv h1 h2 bytes h3 => ?_⟩⟩
  · have L := live_steps M hst
    obtain ⟨a', e', hs, hp'⟩ := live_resetSave M L hp
    have st' := hst.more (.use (.resetSave e'))
    refine ⟨a', e', hp', fun out => ?_⟩
    obtain ⟨bytes, a'', e'', hb, hp''⟩ := live_save hf M (live_steps M st') hs hp' out
    exact ⟨bytes, a'', e'', hb, hp'', st'.more (.use (.save (Or.inl ⟨(), e''⟩)))⟩
  · have L := live_steps M hst
    obtain ⟨a', e', hs⟩ := live_resetLoad M L
    have st' := hst.more (.use (.resetLoad e'))
    refine ⟨a', e', fun rest => ?_⟩
    obtain ⟨a'', e'', hp''⟩ := live_load hf M (live_steps M st') hs h1 h2 h3 rest
    exact ⟨a'', e'', hp'', st'.more (.use (.load (Or.inl ⟨(), e''⟩)))⟩

/-- C48: the round trip, with predictions.  Two programs (or two parts of one) make and compile models
of the same architecture.  Whatever has happened to the models since, the second one gets the weights and
biases of the first when the first is saved and the second loads the bytes, and then both give the same
predictions. -/
theorem C48_same_predictions (hf : Bin.fixed T = true) (hlaw : eq (add zero one) (zero : T) = false) {shape : List Nat}
    {ls : List (LSpec T)} (hfit : Fits ls shape) (hsafe : Safe ls shape) {wA0 wB0 : World T} (hA : 0 < wA0.store.heap.next)
    (hB : 0 < wB0.store.heap.next) :
    ∃ mA wA mB wB, compiled shape ls wA0 = .ok mA wA ∧ compiled shape ls wB0 = .ok mB wB ∧
      ∀ a b, Steps wA0 wA mA wA a → Steps wB0 wB mB wB b →
        ∃ a' a'' bytes b' b'' pv, NetM.resetSave mA a = .ok () a' ∧ NetM.save mA (a', ⟨[], none⟩) = .ok () (a'', ⟨bytes, none⟩) ∧
          NetM.resetLoad mB b = .ok () b' ∧ NetM.load mB (b', bytes) = .ok () (b'', []) ∧
          HasParams a mA pv ∧ HasParams a'' mA pv ∧ HasParams b'' mB pv ∧
          ∀ tA tB x, UserTensor wA0 wA a'' tA x → UserTensor wB0 wB b'' tB x → x.shape = shape →
            ∃ rA a3 rB b3 y, NetM.predict mA tA a'' = .ok rA a3 ∧ NetM.predict mB tB b'' = .ok rB b3 ∧
              Holds a3.store.heap (a3.store.nodes rA).mat y ∧ Holds b3.store.heap (b3.store.nodes rB).mat y := by
  obtain ⟨mA, wA, eA, HA⟩ := C48_sequential hf hlaw hfit hA
  obtain ⟨mB, wB, eB, HB⟩ := C48_sequential hf hlaw hfit hB
  obtain ⟨mA', wA', eA', PA⟩ := C61_predict_safe hlaw hfit hsafe hA
  obtain ⟨mB', wB', eB', PB⟩ := C61_predict_safe hlaw hfit hsafe hB
  rw [eA] at eA'; cases eA'
  rw [eB] at eB'; cases eB'
  refine ⟨mA, wA, mB, wB, eA, eB, fun a b sa sb => ?_⟩
  obtain ⟨pv, hp, hl, hsh⟩ := (PA a sa).1
  obtain ⟨a', r1, _, sv⟩ := (HA a sa).1 pv hp
  obtain ⟨bytes, a'', r2, hb, hp2, sa2⟩ := sv []
  rw [List.nil_append] at r2
  obtain ⟨b', r3, ld⟩ := (HB b sb).2 pv hl hsh bytes hb
  obtain ⟨b'', r4, hp4, sb4⟩ := ld []
  rw [List.append_nil] at r4
  refine ⟨a', a'', bytes, b', b'', pv, r1, r2, r3, r4, hp, hp2, hp4, fun tA tB x ua ub hx => ?_⟩
  obtain ⟨rA, a3, pA, hA, _⟩ := (PA a'' sa2).2 tA x pv ua hx hp2
  obtain ⟨rB, b3, pB, hB, _⟩ := (PB b'' sb4).2 tB x pv ub hx hp4
  exact ⟨rA, a3, rB, b3, _, pA, pB, hA.2.1, hB.2.1⟩

/-- C48: a model that has just been compiled can be saved, and loaded, without the resets -/
theorem C48_just_compiled (hf : Bin.fixed T = true) (hlaw : eq (add zero one) (zero : T) = false) {shape : List Nat} {ls : List (LSpec T)}
    (hfit : Fits ls shape) {w0 : World T} (hpos : 0 < w0.store.heap.next) :
    ∃ m w1, compiled shape ls w0 = .ok m w1 ∧
      (∀ pv out, HasParams w1 m pv → ∃ bytes a, NetM.save m (w1, ⟨out, none⟩) = .ok () (a, ⟨out ++ bytes, none⟩) ∧
        EncodesAll pv.flatten bytes ∧ HasParams a m pv) ∧
      (∀ pv, pv.length = ls.length →
        (∀ k s, ls[k]? = some s → (pv.getD k []).map STensor.shape = s.paramShapes (outShapes (ls.take k) shape)) →
        ∀ bytes rest, EncodesAll pv.flatten bytes → ∃ a, NetM.load m (w1, bytes ++ rest) = .ok () (a, rest) ∧ HasParams a m pv) := by
  obtain ⟨m, w1, e, d, _, _, _, M, S, R⟩ := wp_total (compiled_ok hlaw hpos (fun s _ => ffGood_all s) hfit)
  have L := live_steps M .none
  have hm : ∀ k, Feeds w1 (d.b + ls.length) k → (w1.layers k).saved = false ∧ (w1.layers k).loaded = false := fun k hk => by
    obtain ⟨h1, h2⟩ := (L.feeds M).1 hk
    have := marks_new S R (k := k - d.b) (by omega)
    rw [show d.b + (k - d.b) = k by omega] at this
    exact ⟨this.1, this.2.1⟩
  exact ⟨m, w1, e, fun pv out hp => live_save hf M L (fun k hk => (hm k hk).1) hp out,
    fun pv h1 h2 bytes rest h3 => live_load hf M L (fun k hk => (hm k hk).2) h1 h2 h3 rest⟩

/-- `ResetSave` and `Save`, `n` times -/
def saveRounds (m : Nat) : Nat → World T × Sink → Out (World T × Sink) Unit
  | 0, s => .ok () s
  | n + 1, s =>
    match NetM.resetSave m s.1 with
    | .ok _ w => (NetM.save m (w, s.2)).bind fun _ s => saveRounds m n s
    | .err e w => .err e (w, s.2)
    | .panic => .panic

/-- C49, for sequential models: `ResetSave` and `Save` can be repeated any number of times, in any state
of the model; each time all weights and biases are written, and they do not change.  (For models with
`Concat` layers this is false, see below.) -/
theorem C49_sequential_partial (hf : Bin.fixed T = true) (hlaw : eq (add zero one) (zero : T) = false) {shape : List Nat}
    {ls : List (LSpec T)} (hfit : Fits ls shape) {w0 : World T} (hpos : 0 < w0.store.heap.next) :
    ∃ m w1, compiled shape ls w0 = .ok m w1 ∧ ∀ a, Steps w0 w1 m w1 a → ∀ pv, HasParams a m pv →
      ∃ bytes, EncodesAll pv.flatten bytes ∧ ∀ n out, ∃ a', saveRounds m n (a, ⟨out, none⟩) =
        .ok () (a', ⟨out ++ (List.replicate n bytes).flatten, none⟩) ∧ HasParams a' m pv := by
  obtain ⟨m, w1, e, H⟩ := C48_sequential hf hlaw hfit hpos
  refine ⟨m, w1, e, fun a hst pv hp => ?_⟩
  have : ∃ bytes, EncodesAll pv.flatten bytes := by
    obtain ⟨_, _, _, sv⟩ := (H a hst).1 pv hp
    obtain ⟨bytes, _, _, hb, _, _⟩ := sv []
    exact ⟨bytes, hb⟩
  obtain ⟨bytes, hb⟩ := this
  refine ⟨bytes, hb, fun n => ?_⟩
  induction n generalizing a with
  | zero => exact fun out => ⟨a, by simp [saveRounds], hp⟩
  | succ n ih =>
    intro out
    obtain ⟨a', e1, _, sv⟩ := (H a hst).1 pv hp
    obtain ⟨bytes', a'', e2, hb2, hp2, st2⟩ := sv out
    obtain rfl := encodesAll_unique hb hb2
    obtain ⟨a3, e3, hp3⟩ := ih a'' st2 hp2 (out ++ bytes)
    refine ⟨a3, ?_, hp3⟩
    simp only [saveRounds, e1, e2, Out.bind, e3]
    rw [List.replicate_succ, List.flatten_cons, List.append_assoc]

/-- C49: without `ResetSave` a second `Save` succeeds but writes nothing, whatever the layer graph -/
theorem C49_save_once {w : World T} {m l : Nat} (hl : (w.nets m).last = some l) (hs : (w.layers l).saved = true) (s : Sink) :
    NetM.save m (w, s) = .ok () (w, s) := by
  simp only [NetM.save, hl]
  rw [save_eq]
  simp only [hs, if_true]

/-- C49: `ResetSave` does not go through a `Concat` layer: the layers feeding its two inputs stay
marked, so a model that ends in a `Concat` layer and has been saved writes nothing ever again. -/
theorem C49_concat_not_reset {w : World T} {m l l1 l2 dim : Nat} (hl : (w.nets m).last = some l)
    (hk : (w.layers l).kind = .concat l1 l2 dim) (hp : (w.layers l).pre = none) (h1 : (w.layers l1).saved = true)
    (h2 : (w.layers l2).saved = true) (hn1 : l1 ≠ l) (hn2 : l2 ≠ l) (hlt : l < w.layerNext) (s : Sink) :
    ∃ w' w'', NetM.resetSave m w = .ok () w' ∧ NetM.save m (w', s) = .ok () (w'', s) := by
  have e : NetM.resetSave m w = .ok () (updL l (fun x => { x with saved := false }) w) := by
    show (Run.deref (w.nets m).last >>= fun last => (do let n ← Run.fuel; LayerM.resetSave n last) : Run T Unit) w = _
    rw [hl]
    show (match ((updL l (fun x => { x with saved := false }) w).layers l).pre with
      | some p => LayerM.resetSave w.layerNext p
      | none => pure () : Run T Unit) (updL l (fun x => { x with saved := false }) w) = _
    have : ((updL l (fun x => { x with saved := false }) w).layers l).pre = none := by simp [updL, hp]
    rw [this]; rfl
  refine ⟨_, updL l (fun x => { x with saved := true }) (updL l (fun x => { x with saved := false }) w), e, ?_⟩
  obtain ⟨n, hn⟩ : ∃ n, w.layerNext = n + 1 := ⟨w.layerNext - 1, by omega⟩
  have hl' : ((updL l (fun x => { x with saved := false }) w).nets m).last = some l := hl
  simp only [NetM.save, hl']
  rw [save_eq]
  have g1 : ((updL l (fun x => { x with saved := false }) w).layers l).saved = false := by simp [updL]
  have g2 : parents (updL l (fun x => { x with saved := false }) w) l = [l1, l2] := by simp [parents, updL, hk]
  have g3 : ownNodes ((updL l (fun x => { x with saved := false }) w).layers l) = [] := by simp [ownNodes, updL, hk]
  simp only [g1, g2, g3]
  rw [if_neg (by simp), show (updL l (fun x : Layer T => { x with saved := false }) w).layerNext = n + 1 from hn]
  have hne : ∀ k, k ≠ l → (w.layers k).saved = true → ∀ s, LayerM.save (n + 1) k (LayerM.modW l (fun x => { x with saved := true })
      (updL l (fun x => { x with saved := false }) w, s)) = .ok () (LayerM.modW l (fun x => { x with saved := true })
      (updL l (fun x => { x with saved := false }) w, s)) := fun k hkl hks s => by
    rw [save_eq]
    have : ((LayerM.modW l (fun x => { x with saved := true }) (updL l (fun x => { x with saved := false }) w, s)).1.layers k).saved = true := by
      simp [LayerM.modW, updL, hkl, hks]
    rw [this]; rfl
  simp only [chain, hne l1 hn1 h1, hne l2 hn2 h2, Out.bind]
  rfl

end

/-! ### instances -/

/-- a model whose last layer concatenates the outputs of two dense layers on the same input -/
def branched : World (BitVec 16) where
  store := ⟨fun n => ⟨.leaf, [(⟨[2, 1], [1, 1], [1, 2]⟩ : Mat), ⟨[2], [1], [3, 4]⟩, ⟨[1, 1], [1, 1], [5]⟩, ⟨[1], [1], [6]⟩].getD n ⟨[], [], []⟩, true⟩,
    ⟨fun q => BitVec.ofNat 16 (q * 300), 7⟩, []⟩
  nodeNext := 4
  layers := fun l => [LayerM.blank .input, { LayerM.blank .dense with pre := some 0, weights := some 0, bias := some 1 },
    { LayerM.blank .dense with pre := some 0, weights := some 2, bias := some 3 }, LayerM.blank (.concat 1 2 0)].getD l (LayerM.blank .input)
  layerNext := 4
  nets := fun _ => { NetM.blankNet with last := some 3 }
  netNext := 1
  rnd := fun _ _ => 0
  draws := 0

theorem branched_feeds {k : Nat} (h : Feeds branched 3 k) : k = 0 ∨ k = 1 ∨ k = 2 ∨ k = 3 := by
  have : ∀ {l k}, Feeds branched l k → l ≤ 3 → k ≤ 3 := by
    intro l k h
    induction h with
    | refl l => exact fun h => h
    | @step l p k hp _ ih =>
      intro hl
      refine ih ?_
      have : l = 0 ∨ l = 1 ∨ l = 2 ∨ l = 3 := by omega
      rcases this with rfl | rfl | rfl | rfl
      · exact absurd (show p ∈ ([] : List Nat) from hp) (by simp)
      · have : p ∈ [0] := hp
        simp at this; omega
      · have : p ∈ [0] := hp
        simp at this; omega
      · have : p ∈ [1, 2] := hp
        simp at this; omega
  have := this h (le_refl _)
  omega

theorem branched_acyclic : Acyclic branched 3 := by
  refine ⟨id, by decide, fun k hk p hp => ?_⟩
  rcases branched_feeds hk with rfl | rfl | rfl | rfl
  · exact absurd (show p ∈ ([] : List Nat) from hp) (by simp)
  · have : p ∈ [0] := hp
    simp at this; subst this; decide
  · have : p ∈ [0] := hp
    simp at this; subst this; decide
  · have : p ∈ [1, 2] := hp
    simp at this; rcases this with rfl | rfl <;> decide

/-- the weights and biases of `branched` -/
def branchedVals (k : Nat) : List (STensor (BitVec 16)) :=
  [[], [⟨[2, 1], fun i => if i = [0, 0] then 300 else 600⟩, ⟨[2], fun i => if i = [0] then 900 else 1200⟩],
    [⟨[1, 1], fun _ => 1500⟩, ⟨[1], fun _ => 1800⟩], []].getD k []

theorem branched_vals {k : Nat} (h : Feeds branched 3 k) :
    List.Forall₂ (Holds branched.store.heap) (ownTensors branched k) (branchedVals k) := by
  have hv : ∀ p ∈ [1, 2, 3, 4, 5, 6], Valid branched.store.heap p := by
    intro p hp
    simp at hp
    unfold Valid
    show 0 < p ∧ p < 7
    omega
  rcases branched_feeds h with rfl | rfl | rfl | rfl
  · exact .nil
  · refine .cons (holds_of_flat rfl rfl (fun p hp => hv p ?_) (by decide +kernel)) (.cons (holds_of_flat rfl rfl (fun p hp => hv p ?_) (by decide +kernel)) .nil)
    · have : p ∈ [1, 2] := hp
      simp at this ⊢; omega
    · have : p ∈ [3, 4] := hp
      simp at this ⊢; omega
  · refine .cons (holds_of_flat rfl rfl (fun p hp => hv p ?_) (by decide +kernel)) (.cons (holds_of_flat rfl rfl (fun p hp => hv p ?_) (by decide +kernel)) .nil)
    · have : p ∈ [5] := hp
      simp at this ⊢; omega
    · have : p ∈ [6] := hp
      simp at this ⊢; omega
  · exact .nil

theorem branched_saved : SavedIs false branched 3 := fun k hk => by
  rcases branched_feeds hk with rfl | rfl | rfl | rfl <;> rfl

theorem branched_loaded : LoadedIs false branched 3 := fun k hk => by
  rcases branched_feeds hk with rfl | rfl | rfl | rfl <;> rfl

theorem branched_distinct : Distinct branched 3 := by
  constructor
  · intro k hk
    rcases branched_feeds hk with rfl | rfl | rfl | rfl <;> decide
  · intro j k hj hk hne x hx y hy q hqx hqy
    have hin : ∀ {k}, Feeds branched 3 k → ∀ {x : Mat}, x ∈ ownTensors branched k → ∀ {q}, q ∈ x.ops →
        (k = 1 ∧ q ≤ 4) ∨ (k = 2 ∧ 4 < q) := by
      intro k hk x hx q hq
      rcases branched_feeds hk with rfl | rfl | rfl | rfl
      · exact absurd (show x ∈ ([] : List Mat) from hx) (by simp)
      · have : x ∈ [(⟨[2, 1], [1, 1], [1, 2]⟩ : Mat), ⟨[2], [1], [3, 4]⟩] := hx
        simp at this
        rcases this with rfl | rfl <;> simp at hq <;> omega
      · have : x ∈ [(⟨[1, 1], [1, 1], [5]⟩ : Mat), ⟨[1], [1], [6]⟩] := hx
        simp at this
        rcases this with rfl | rfl <;> simp at hq <;> omega
      · exact absurd (show x ∈ ([] : List Mat) from hx) (by simp)
    have h1 := hin hj hx hqx
    have h2 := hin hk hy hqy
    omega

/-- C48, a branched instance: what `Save` writes is not trivial -/
example := C48_save (m := 0) rfl (w := branched) rfl branched_acyclic branched_saved (fun _ h => branched_vals h) [7]

example : ∃ w, NetM.save 0 (branched, ⟨[], none⟩) = .ok () (w, ⟨[0x2C, 0x01, 0x58, 0x02, 0x84, 0x03, 0xB0, 0x04, 0xDC, 0x05, 0x08, 0x07], none⟩) :=
  ⟨_, rfl⟩

example := C48_round_trip (m := 0) (m2 := 0) rfl (w := branched) (w2 := branched) rfl branched_acyclic branched_saved (fun _ h => branched_vals h) rfl
  branched_acyclic branched_loaded branched_distinct (f := id) ⟨rfl, fun _ _ _ _ h => h, fun _ _ => by simp⟩ (fun _ h => ⟨branched_vals h, rfl⟩)

/-- C49 is false of models with a `Concat` layer: this model is saved, `ResetSave` is called, and the
next `Save` writes nothing. -/
theorem C49_not_written_again : ∃ w1 w2 w3 bytes, NetM.save 0 (branched, ⟨[], none⟩) = .ok () (w1, ⟨bytes, none⟩) ∧ bytes.length = 12 ∧
    NetM.resetSave 0 w1 = .ok () w2 ∧ NetM.save 0 (w2, ⟨[], none⟩) = .ok () (w3, ⟨[], none⟩) :=
  ⟨_, _, _, _, rfl, rfl, rfl, rfl⟩

attribute [local irreducible] compiled NetM.predict NetM.compile netFn in
/-- C48, a sequential instance -/
example := C48_same_predictions (T := BitVec 16) (shape := [1, 4, 5])
  (ls := [.conv 2 2 3 1 1 .linear, .maxPool 2 2, .flatten, .dense 2 .linear]) rfl (by decide)
  (by simp [Fits, LSpec.fits, LSpec.outShape]) (by simp [Safe, LSpec.safe, LSpec.outShape]) (wA0 := worldOf [1, 4, 5] 7) (wB0 := worldOf [3] 2)
  (by decide) (by decide)

attribute [local irreducible] compiled NetM.predict NetM.compile netFn in
/-- C49, an instance -/
example := C49_sequential_partial (T := BitVec 16) (shape := [3]) (ls := [.dense 2 .linear, .dense 4 .linear]) rfl (by decide)
  (by simp [Fits, LSpec.fits]) (w0 := worldOf [3] 2) (by decide)

end Godeep.Props
