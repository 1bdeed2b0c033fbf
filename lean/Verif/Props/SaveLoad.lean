import Verif.Lemmas.SaveNet
import Verif.Lemmas.Predict
/-
  C48, C49: saving and loading models.
-/
set_option linter.unusedSectionVars false

namespace Godeep.Props
open Godeep Spec GoNum

variable {T : Type} [GoNum T] [Bin T]

theorem visit_fuel {par : Nat → List Nat} {rank : Nat → Nat} : ∀ (n l d : Nat) (fl : Nat → Bool), rank l < n →
    (∀ j, Rch par l j → ∀ p ∈ par j, rank p < rank j) → visit par (n + d) l fl = visit par n l fl := by
  intro n
  induction n with
  | zero => intro l d fl h; omega
  | succ n ih =>
    intro l d fl hl hr
    rw [show n + 1 + d = (n + d) + 1 by omega]
    simp only [visit]
    have key : ∀ (ps : List Nat) (fl : Nat → Bool), (∀ p ∈ ps, p ∈ par l) →
        visits (visit par (n + d)) ps fl = visits (visit par n) ps fl := by
      intro ps
      induction ps with
      | nil => intro fl _; rfl
      | cons p ps ihp =>
        intro fl hps
        have hp := hps p (by simp)
        have := hr l (.refl l) p hp
        simp only [visits]
        rw [ih p d fl (by omega) (fun j hj => hr j (.step hp hj)), ihp _ (fun q hq => hps q (by simp [hq]))]
    rw [key _ _ (fun _ h => h)]

theorem encodesAll_append {a b : List (STensor T)} {x y : List Byte} (h1 : EncodesAll a x) (h2 : EncodesAll b y) :
    EncodesAll (a ++ b) (x ++ y) := by
  obtain ⟨p, e1, rfl⟩ := h1
  obtain ⟨q, e2, rfl⟩ := h2
  exact ⟨p ++ q, List.rel_append e1 e2, by simp⟩

theorem encodesAll_mats {h : Heap T} {ms : List Mat} {ts : List (STensor T)} (H : List.Forall₂ (Holds h) ms ts) :
    EncodesAll ts (ms.flatMap fun m => m.ops.flatMap fun p => Bin.encode (h.val p)) := by
  induction H with
  | nil => exact ⟨[], .nil, rfl⟩
  | @cons m t ms ts h1 _ ih =>
    have : EncodesAll [t] (m.ops.flatMap fun p => Bin.encode (h.val p)) := by
      rw [ops_flatMap h1]
      exact ⟨[_], .cons (encodes_flat t) .nil, by simp⟩
    exact encodesAll_append this ih

theorem encodesAll_unique {ts : List (STensor T)} {b b' : List Byte} (h : EncodesAll ts b) (h' : EncodesAll ts b') : b = b' := by
  obtain ⟨p, e1, rfl⟩ := h
  obtain ⟨q, e2, rfl⟩ := h'
  congr 1
  induction e1 generalizing q with
  | nil => cases e2; rfl
  | cons h _ ih =>
    cases e2 with
    | cons h2 h3 => rw [encodes_unique h h2, ih _ h3]

theorem encodesAll_layers {w : World T} {P : Nat → List (STensor T)} : ∀ (o : List Nat),
    (∀ k ∈ o, List.Forall₂ (Holds w.store.heap) (ownTensors w k) (P k)) →
    EncodesAll (o.flatMap P) (bytesOf w (o.flatMap fun k => ownNodes (w.layers k))) := by
  intro o
  induction o with
  | nil => intro _; exact ⟨[], .nil, rfl⟩
  | cons k o ih =>
    intro h
    rw [List.flatMap_cons, List.flatMap_cons, bytesOf, List.flatMap_append]
    refine encodesAll_append ?_ (ih fun k hk => h k (by simp [hk]))
    have := encodesAll_mats (h k (by simp))
    rw [ownTensors_eq, List.flatMap_map] at this
    exact this

theorem own_pos {w : World T} {k : Nat} {ts : List (STensor T)} (H : List.Forall₂ (Holds w.store.heap) (ownTensors w k) ts) :
    ∀ n ∈ ownNodes (w.layers k), ∀ p ∈ (w.store.nodes n).mat.ops, p ≠ 0 := by
  rw [ownTensors_eq] at H
  generalize ownNodes (w.layers k) = ns at H
  intro n hn p hp
  induction ns generalizing ts with
  | nil => simp at hn
  | cons x ns ih =>
    cases H with
    | cons h1 h2 =>
      rcases List.mem_cons.1 hn with rfl | hn
      · have := (h1.valid p hp).1; omega
      · exact ih h2 hn

/-- C48: `Save` of a model whose layers are connected in any way, branches included, into a writer that
does not fail.  It writes the weights and biases of every layer that feeds the last one, each exactly
once, and nothing else; apart from the marks that say that the layers have been saved nothing changes. -/
theorem C48_save (hf : Bin.fixed T = true) {w : World T} {m l : Nat} (hl : (w.nets m).last = some l) (hac : Acyclic w l)
    (hs : SavedIs false w l) {P : Nat → List (STensor T)}
    (hP : ∀ k, Feeds w l k → List.Forall₂ (Holds w.store.heap) (ownTensors w k) (P k)) (out : List Byte) :
    ∃ (order : List Nat) (bytes : List Byte) (w' : World T), NetM.save m (w, ⟨out, none⟩) = .ok () (w', ⟨out ++ bytes, none⟩) ∧
      order.Nodup ∧ (∀ k, k ∈ order ↔ Feeds w l k) ∧ EncodesAll (order.flatMap P) bytes ∧
      (∀ k, Feeds w l k → w'.layers k = { w.layers k with saved := true }) ∧
      (∀ k, ¬ Feeds w l k → w'.layers k = w.layers k) ∧ { w' with layers := w.layers } = w := by
  obtain ⟨rank, hr, hrk⟩ := hac
  simp only [feeds_iff] at hrk hP ⊢
  have hfull : Full (parents w) l fun k => (w.layers k).saved := by
    intro k hk h
    have := hs k (feeds_iff.2 hk)
    simp only at h
    rw [h] at this; cases this
  obtain ⟨v1, v2⟩ := visit_spec (rank := rank) (w.layerNext + 1) l (fun k => (w.layers k).saved) (by omega) hrk hfull
  have v3 : ∀ k, k ∈ visit (parents w) (w.layerNext + 1) l (fun k => (w.layers k).saved) ↔ Rch (parents w) l k := fun k =>
    (v2 k).trans ⟨fun h => h.1, fun h => ⟨h, hs k (feeds_iff.2 h)⟩⟩
  have e := save_visit hf (rank := rank) (w.layerNext + 1) l w out (by omega) hrk (fun j hj => own_pos (hP j hj))
  refine ⟨_, _, markSaved (visit (parents w) (w.layerNext + 1) l fun k => (w.layers k).saved) w, ?_, v1, v3, encodesAll_layers _ (fun k hk => hP k ((v3 k).1 hk)), fun k hk => ?_, fun k hk => ?_, rfl⟩
  · simp only [NetM.save, hl]
    exact e
  · simp only [markSaved]
    rw [if_pos ((v3 k).2 hk)]
  · simp only [markSaved]
    rw [if_neg (fun h => hk ((v3 k).1 h))]

theorem forall₂_blocks {α β γ : Type} {f : α → List γ} {g : β → List γ} : ∀ {as : List α} {bs : List β},
    List.Forall₂ (fun a b => (f a).length = (g b).length) as bs → as.flatMap f = bs.flatMap g →
    List.Forall₂ (fun a b => f a = g b) as bs := by
  intro as bs h
  induction h with
  | nil => intro _; exact .nil
  | cons h1 _ ih =>
    intro e
    simp only [List.flatMap_cons] at e
    obtain ⟨e1, e2⟩ := List.append_inj e h1
    exact .cons e1 (ih e2)


theorem encodesAll_eq {ts : List (STensor T)} {b : List Byte} (h : EncodesAll ts b) : b = (ts.flatMap STensor.flat).flatMap Bin.encode := by
  refine encodesAll_unique h ?_
  clear h
  induction ts with
  | nil => exact ⟨[], .nil, rfl⟩
  | cons t ts ih =>
    rw [List.flatMap_cons, List.flatMap_append]
    have e1 : EncodesAll [t] (t.flat.flatMap Bin.encode) := ⟨[_], .cons (encodes_flat t) .nil, by simp⟩
    exact encodesAll_append e1 ih

theorem flat_length (t : STensor T) : t.flat.length = size t.shape := by simp [STensor.flat]

theorem cells_tensors (w : World T) (o : List Nat) : cellsOf w (o.flatMap fun k => ownNodes (w.layers k)) =
    (o.flatMap (ownTensors w)).flatMap Mat.ops := by
  unfold cellsOf
  rw [List.flatMap_assoc, List.flatMap_assoc]
  congr 1; funext k
  rw [ownTensors_eq, List.flatMap_map]

theorem forall₂_flatMap {α β γ : Type} {R : β → γ → Prop} {f : α → List β} {g : α → List γ} : ∀ (o : List α),
    (∀ k ∈ o, List.Forall₂ R (f k) (g k)) → List.Forall₂ R (o.flatMap f) (o.flatMap g) := by
  intro o
  induction o with
  | nil => intro _; exact .nil
  | cons k o ih =>
    intro h
    simp only [List.flatMap_cons]
    exact List.rel_append (h k (by simp)) (ih fun k hk => h k (by simp [hk]))

theorem forall₂_part {α β γ : Type} {R : β → γ → Prop} {f : α → List β} {g : α → List γ} : ∀ (o : List α),
    (∀ k ∈ o, (f k).length = (g k).length) → List.Forall₂ R (o.flatMap f) (o.flatMap g) → ∀ k ∈ o, List.Forall₂ R (f k) (g k) := by
  intro o
  induction o with
  | nil => intro _ _ k hk; simp at hk
  | cons j o ih =>
    intro hl h k hk
    simp only [List.flatMap_cons] at h
    have hjl := hl j (by simp)
    rcases List.mem_cons.1 hk with rfl | hk
    · have h2 : List.Forall₂ _ _ _ := List.forall₂_take (f k).length h
      rwa [List.take_left, hjl, List.take_left] at h2
    · refine ih (fun k hk => hl k (by simp [hk])) ?_ k hk
      have h2 : List.Forall₂ _ _ _ := List.forall₂_drop (f j).length h
      rwa [List.drop_left, hjl, List.drop_left] at h2

/-- `Load` of bytes that hold the right number of tensors of the right shapes -/
theorem load_core (hf : Bin.fixed T = true) {w : World T} {m l : Nat} (hl : (w.nets m).last = some l) (hac : Acyclic w l)
    (hs : LoadedIs false w l) (hd : Distinct w l) {P Q : Nat → List (STensor T)}
    (hQ : ∀ k, Feeds w l k → List.Forall₂ (Holds w.store.heap) (ownTensors w k) (Q k) ∧
      (Q k).map STensor.shape = (P k).map STensor.shape) {bytes : List Byte}
    (hb : EncodesAll ((visit (parents w) (w.layerNext + 1) l fun k => (w.layers k).loaded).flatMap P) bytes) (rest : List Byte) :
    ∃ w3, NetM.load m (w, bytes ++ rest) = .ok () (w3, rest) ∧
      (∀ k, Feeds w l k → List.Forall₂ (Holds w3.store.heap) (ownTensors w3 k) (P k)) ∧
      (∀ k, Feeds w l k → w3.layers k = { w.layers k with loaded := true }) ∧
      (∀ k, ¬ Feeds w l k → w3.layers k = w.layers k) ∧
      (∀ q, (∀ k, Feeds w l k → ∀ a ∈ ownTensors w k, q ∉ a.ops) → w3.store.heap.val q = w.store.heap.val q) ∧
      { w3 with layers := w.layers, store := { w3.store with heap := { w3.store.heap with val := w.store.heap.val } } } = w := by
  obtain ⟨rank, hr, hrk⟩ := hac
  simp only [feeds_iff] at hrk hQ ⊢
  have hfull : Full (parents w) l fun k => (w.layers k).loaded := by
    intro k hk h
    have := hs k (feeds_iff.2 hk)
    simp only at h
    rw [h] at this; cases this
  obtain ⟨v1, v2⟩ := visit_spec (rank := rank) (w.layerNext + 1) l (fun k => (w.layers k).loaded) (by omega) hrk hfull
  set o := visit (parents w) (w.layerNext + 1) l (fun k => (w.layers k).loaded) with ho
  have v3 : ∀ k, k ∈ o ↔ Rch (parents w) l k := fun k =>
    (v2 k).trans ⟨fun h => h.1, fun h => ⟨h, hs k (feeds_iff.2 h)⟩⟩
  have hpair : ∀ k, Rch (parents w) l k → List.Forall₂ (fun (a : Mat) (t : STensor T) => a.ops.length = t.flat.length)
      (ownTensors w k) (P k) := by
    intro k hk
    obtain ⟨q1, q2⟩ := hQ k hk
    rw [List.forall₂_iff_get] at q1 ⊢
    have hlen : (Q k).length = (P k).length := by simpa using congrArg List.length q2
    refine ⟨by rw [q1.1, hlen], fun i h1 h2 => ?_⟩
    have i1 : i < (Q k).length := by rw [hlen]; exact h2
    have a1 := q1.2 i h1 i1
    have := congrArg (fun l => l[i]?) q2
    simp only [List.getElem?_map, List.getElem?_eq_getElem i1, List.getElem?_eq_getElem h2, Option.map_some,
      Option.some.injEq] at this
    rw [a1.len, a1.shape, flat_length]
    simp only [List.get_eq_getElem, this]
  have hp2 := forall₂_flatMap o fun k hk => hpair k ((v3 k).1 hk)
  have hlen : ∀ {as : List Mat} {bs : List (STensor T)}, List.Forall₂ (fun (a : Mat) (t : STensor T) => a.ops.length = t.flat.length) as bs →
      (bs.flatMap STensor.flat).length = (as.flatMap Mat.ops).length := by
    intro as bs h
    induction h with
    | nil => rfl
    | cons h1 _ ih => simp only [List.flatMap_cons, List.length_append, h1, ih]
  have hvl : ((o.flatMap P).flatMap STensor.flat).length = (cellsOf w (o.flatMap fun k => ownNodes (w.layers k))).length := by
    rw [cells_tensors, hlen hp2]
  have el := load_visit hf (rank := rank) (w.layerNext + 1) l w ((o.flatMap P).flatMap STensor.flat) rest (by omega) hrk
    (fun j hj => own_pos (hQ j hj).1) hvl
  rw [← ho, ← encodesAll_eq hb] at el
  refine ⟨_, by simp only [NetM.load, hl]; exact el, fun k hk => ?_, fun k hk => ?_, fun k hk => ?_, fun q hq => ?_, ?_⟩
  · -- the values
    set W := loadedW o ((cellsOf w (o.flatMap fun k => ownNodes (w.layers k))).zip
      ((o.flatMap P).flatMap STensor.flat)) w with hW
    have hown : ownTensors W k = ownTensors w k := by
      rw [ownTensors_eq, ownTensors_eq, hW, loadedW_ownNodes]
      rfl
    rw [hown]
    have hnd : (cellsOf w (o.flatMap fun k => ownNodes (w.layers k))).Nodup := by
      rw [cells_tensors]
      have : ∀ o' : List Nat, o'.Nodup → (∀ k ∈ o', Rch (parents w) l k) →
          ((o'.flatMap (ownTensors w)).flatMap Mat.ops).Nodup := by
        intro o'
        induction o' with
        | nil => intro _ _; simp
        | cons k o' ih =>
          intro hnd hR
          simp only [List.flatMap_cons, List.flatMap_append]
          rw [List.nodup_append]
          rw [List.nodup_cons] at hnd
          have hk := hR k (by simp)
          refine ⟨hd.own k (feeds_iff.2 hk), ih hnd.2 (fun k hk => hR k (by simp [hk])), ?_⟩
          intro a ha b hb hab
          subst hab
          obtain ⟨x, hx, hxa⟩ := List.mem_flatMap.1 ha
          obtain ⟨y, hy, hyb⟩ := List.mem_flatMap.1 hb
          obtain ⟨j, hj, hyj⟩ := List.mem_flatMap.1 hy
          have hj' := hR j (by simp [hj])
          refine hd.other k j (feeds_iff.2 hk) (feeds_iff.2 hj') (fun e => ?_) x hx y hyj a hxa hyb
          subst e
          exact hnd.1 hj
      exact this o v1 (fun k hk => (v3 k).1 hk)
    -- the cells got the values
    have hmap : (cellsOf w (o.flatMap fun k => ownNodes (w.layers k))).map W.store.heap.val =
        (o.flatMap P).flatMap STensor.flat := by
      apply List.ext_getElem?
      intro i
      by_cases hi : i < (cellsOf w (o.flatMap fun k => ownNodes (w.layers k))).length
      · have hp := List.getElem?_eq_getElem hi
        rw [List.getElem?_map, hp, Option.map_some]
        show some ((((cellsOf w (o.flatMap fun k => ownNodes (w.layers k))).zip
          ((o.flatMap P).flatMap STensor.flat)).foldl
            (fun h pv => h.put pv.1 pv.2) w.store.heap).val _) = _
        rw [Mat.foldl_put_zip hnd _ _ hp, List.getD_eq_getElem?_getD, List.getElem?_eq_getElem (by rw [hvl]; exact hi)]
        rfl
      · rw [List.getElem?_eq_none (by rw [List.length_map]; omega), List.getElem?_eq_none (by rw [hvl]; omega)]
    rw [cells_tensors, List.map_flatMap] at hmap
    have hblk := forall₂_blocks (f := fun a : Mat => a.ops.map W.store.heap.val) (g := STensor.flat)
      (hp2.imp fun a b h => by simpa using h) hmap
    have h3 := forall₂_part o (fun k hk => (hpair k ((v3 k).1 hk)).length_eq) hblk k ((v3 k).2 hk)
    obtain ⟨q1, q2⟩ := hQ k hk
    rw [List.forall₂_iff_get] at q1 h3 ⊢
    have hlQ : (Q k).length = (P k).length := by simpa using congrArg List.length q2
    refine ⟨by rw [q1.1, hlQ], fun i h1 h2 => ?_⟩
    have i1 : i < (Q k).length := by rw [← q1.1]; exact h1
    have a1 := q1.2 i h1 i1
    have a3 := h3.2 i h1 h2
    have hsh := congrArg (fun l => l[i]?) q2
    simp only [List.getElem?_map, List.getElem?_eq_getElem i1, List.getElem?_eq_getElem h2, Option.map_some,
      Option.some.injEq] at hsh
    refine holds_of_flat (a1.shape.trans hsh) a1.mul (fun p hp => ?_) a3
    have := a1.valid p hp
    refine ⟨this.1, ?_⟩
    show p < (List.foldl _ w.store.heap _).next
    rw [Mat.foldl_put_next]; exact this.2
  · simp only [loadedW]
    rw [if_pos ((v3 k).2 hk)]
  · simp only [loadedW]
    rw [if_neg fun h => hk ((v3 k).1 h)]
  · refine Mat.foldl_put_other _ _ ?_
    rintro ⟨p, v⟩ hx rfl
    have := (List.of_mem_zip hx).1
    rw [cells_tensors] at this
    obtain ⟨a, ha, hpa⟩ := List.mem_flatMap.1 this
    obtain ⟨k, hk, hak⟩ := List.mem_flatMap.1 ha
    exact hq k ((v3 k).1 hk) a hak hpa
  · simp only [loadedW, Mat.foldl_put_next]

/-- C48: a model whose layers are connected in any way, branches included, is saved, and the bytes are
loaded into a model of the same architecture (`f` gives the corresponding layers, and corresponding
weights have the same shapes).  The reader is left just after these bytes; all weights and biases are
those of the saved model, and nothing else but the marks of the loaded layers has changed. -/
theorem C48_round_trip (hf : Bin.fixed T = true) {w : World T} {m l : Nat} (hl : (w.nets m).last = some l) (hac : Acyclic w l)
    (hs : SavedIs false w l) {P : Nat → List (STensor T)}
    (hP : ∀ k, Feeds w l k → List.Forall₂ (Holds w.store.heap) (ownTensors w k) (P k))
    {w2 : World T} {m2 l2 : Nat} (hl2 : (w2.nets m2).last = some l2) (hac2 : Acyclic w2 l2) (hs2 : LoadedIs false w2 l2)
    (hd : Distinct w2 l2) {f : Nat → Nat} (hsame : SameNet f w l w2 l2) {Q : Nat → List (STensor T)}
    (hQ : ∀ k, Feeds w l k → List.Forall₂ (Holds w2.store.heap) (ownTensors w2 (f k)) (Q k) ∧
      (Q k).map STensor.shape = (P k).map STensor.shape) :
    ∃ (bytes : List Byte) (w' : World T), NetM.save m (w, ⟨[], none⟩) = .ok () (w', ⟨bytes, none⟩) ∧ ∀ rest, ∃ w3,
      NetM.load m2 (w2, bytes ++ rest) = .ok () (w3, rest) ∧
      (∀ k, Feeds w l k → List.Forall₂ (Holds w3.store.heap) (ownTensors w3 (f k)) (P k)) ∧
      (∀ k, Feeds w2 l2 k → w3.layers k = { w2.layers k with loaded := true }) ∧
      (∀ k, ¬ Feeds w2 l2 k → w3.layers k = w2.layers k) ∧
      (∀ q, (∀ k, Feeds w2 l2 k → ∀ a ∈ ownTensors w2 k, q ∉ a.ops) → w3.store.heap.val q = w2.store.heap.val q) ∧
      { w3 with layers := w2.layers, store := { w3.store with heap := { w3.store.heap with val := w2.store.heap.val } } } = w2 := by
  classical
  have hac2' := hac2
  obtain ⟨rank, hr, hrk⟩ := hac
  obtain ⟨rank2, hr2, hrk2⟩ := hac2
  obtain ⟨hlast, hinj, hpar⟩ := hsame
  simp only [feeds_iff] at hrk hrk2 hinj hpar
  subst hlast
  have hfull : Full (parents w) l fun k => (w.layers k).saved := by
    intro k hk h
    have := hs k (feeds_iff.2 hk)
    simp only at h
    rw [h] at this; cases this
  have hrch : ∀ {a k}, Rch (parents w) l a → Rch (parents w) a k → Rch (parents w2) (f a) (f k) := by
    intro a k hla h
    induction h with
    | refl _ => exact .refl _
    | step h1 _ ih =>
      refine .step (p := f _) ?_ (ih (hla.trans (.step h1 (.refl _))))
      rw [hpar _ hla]; exact List.mem_map.2 ⟨_, h1, rfl⟩
  have hrch2 : ∀ {x j}, Rch (parents w2) x j → ∀ a, Rch (parents w) l a → x = f a → ∃ k, Rch (parents w) l k ∧ j = f k := by
    intro x j h
    induction h with
    | refl _ => intro a ha e; exact ⟨a, ha, e⟩
    | step h1 _ ih =>
      rintro a ha rfl
      rw [hpar a ha] at h1
      obtain ⟨p, hp, rfl⟩ := List.mem_map.1 h1
      exact ih p (ha.trans (.step hp (.refl _))) rfl
  obtain ⟨v1, v2⟩ := visit_spec (rank := rank) (w.layerNext + 1) l (fun k => (w.layers k).saved) (by omega) hrk hfull
  set o := visit (parents w) (w.layerNext + 1) l (fun k => (w.layers k).saved) with ho
  have v3 : ∀ k, k ∈ o ↔ Rch (parents w) l k := fun k =>
    (v2 k).trans ⟨fun h => h.1, fun h => ⟨h, hs k (feeds_iff.2 h)⟩⟩
  have hvis : visit (parents w2) (w2.layerNext + 1) (f l) (fun k => (w2.layers k).loaded) = o.map f := by
    have e1 := (visit_map (f := f) (w.layerNext + 1 + (w2.layerNext + 1)) l (fun k => (w.layers k).saved)
      (fun k => (w2.layers k).loaded) hpar hinj (fun k hk => by
        rw [hs k (feeds_iff.2 hk), hs2 (f k) (feeds_iff.2 (hrch (.refl l) hk))])).1
    rw [visit_fuel (par := parents w) (rank := rank) (w.layerNext + 1) l _ _ (by omega) hrk, ← ho] at e1
    rw [← e1, Nat.add_comm (w.layerNext + 1) (w2.layerNext + 1), visit_fuel (par := parents w2) (rank := rank2) (w2.layerNext + 1) (f l) _ _ (by omega) hrk2]
  have e := save_visit hf (rank := rank) (w.layerNext + 1) l w [] (by omega) hrk (fun j hj => own_pos (hP j (feeds_iff.2 hj)))
  rw [← ho, List.nil_append] at e
  refine ⟨_, _, by simp only [NetM.save, hl]; exact e, fun rest => ?_⟩
  -- the layer of the saved model that corresponds to a layer of the other one
  let g : Nat → Nat := fun j => if h : ∃ k, Rch (parents w) l k ∧ j = f k then h.choose else 0
  have hg : ∀ k, Rch (parents w) l k → g (f k) = k := fun k hk => by
    have h : ∃ k', Rch (parents w) l k' ∧ f k = f k' := ⟨k, hk, rfl⟩
    have e : g (f k) = h.choose := dif_pos h
    rw [e]
    exact (hinj _ _ hk h.choose_spec.1 h.choose_spec.2).symm
  have hb := encodesAll_layers (w := w) (P := P) o fun k hk => hP k (feeds_iff.2 ((v3 k).1 hk))
  have eP : (o.map f).flatMap (fun j => P (g j)) = o.flatMap P := by
    rw [List.flatMap_map]
    have : ∀ o' : List Nat, (∀ k ∈ o', Rch (parents w) l k) → o'.flatMap (fun k => P (g (f k))) = o'.flatMap P := by
      intro o'
      induction o' with
      | nil => intro _; rfl
      | cons k o' ih =>
        intro h
        rw [List.flatMap_cons, List.flatMap_cons, hg k (h k (by simp)), ih fun k hk => h k (by simp [hk])]
    exact this o fun k hk => (v3 k).1 hk
  obtain ⟨w3, e3, h1, h2, h3, h4, h5⟩ := load_core hf hl2 hac2' hs2 hd (P := fun j => P (g j)) (Q := fun j => Q (g j)) (fun j hj => by
    obtain ⟨k, hk, rfl⟩ := hrch2 (feeds_iff.1 hj) l (.refl l) rfl
    simp only [hg k hk]
    exact hQ k (feeds_iff.2 hk)) (bytes := bytesOf w (o.flatMap fun k => ownNodes (w.layers k))) (by rw [hvis, eP]; exact hb) rest
  refine ⟨w3, e3, fun k hk => ?_, h2, h3, h4, h5⟩
  have := h1 (f k) (feeds_iff.2 (hrch (.refl l) (feeds_iff.1 hk)))
  rw [hg k (feeds_iff.1 hk)] at this
  exact this

end Godeep.Props
