import Verif.Lemmas.JFinal
import Verif.Spec.Joined
/-
  The weights of a joined model are those of its parts.
-/
set_option linter.unusedSectionVars false

namespace Godeep
open Spec GoNum

variable {T : Type} [GoNum T]

/-- the weights and biases of the `n` layers after layer `b` -/
def lps (w : World T) (b n : Nat) : List (List Mat) := (List.range n).map fun k => layerParams w (b + 1 + k)

theorem lps_length (w : World T) (b n : Nat) : (lps w b n).length = n := by simp [lps]

theorem lps_add (w : World T) (b m n : Nat) : lps w b (m + n) = lps w b m ++ lps w (b + m) n := by
  unfold lps
  rw [List.range_add, List.map_append, List.map_map]
  congr 1
  refine List.map_congr_left fun k _ => ?_
  simp only [Function.comp_apply]
  congr 1; omega

theorem lps_succ (w : World T) (b n : Nat) : lps w b (n + 1) = lps w b n ++ [layerParams w (b + n + 1)] := by
  rw [lps_add]
  simp [lps]

theorem lps_cons (w : World T) (b n : Nat) : lps w b (n + 1) = layerParams w (b + 1) :: lps w (b + 1) n := by
  rw [Nat.add_comm, lps_add]
  simp [lps]

theorem paramsFrom_chain {w : World T} {f n : Nat} (h : ∀ k < n, (w.layers (f + 1 + k)).pre = some (f + k)) : ParamsFrom w f (f + n) (lps w f n) := by
  induction n with
  | zero => exact .first
  | succ n ih =>
    rw [lps_succ]
    refine .layer (by omega) ?_ (ih fun k hk => h k (by omega))
    have := h n (by omega)
    rwa [show f + 1 + n = f + (n + 1) by omega] at this

theorem paramsFrom_unique {w : World T} {f n : Nat} (h : ∀ k < n, (w.layers (f + 1 + k)).pre = some (f + k)) {ps : List (List Mat)}
    (hp : ParamsFrom w f (f + n) ps) : ps = lps w f n := by
  induction n generalizing ps with
  | zero =>
    generalize hl : f + 0 = l at hp
    cases hp with
    | first => rfl
    | layer h1 _ _ => exact absurd hl (by omega)
  | succ n ih =>
    generalize hl : f + (n + 1) = l at hp
    cases hp with
    | first => omega
    | @layer _ p ps' h1 h2 h3 =>
      have := h n (by omega)
      rw [show f + 1 + n = l by omega, h2] at this
      cases this
      rw [ih (fun k hk => h k (by omega)) h3, lps_succ, ← hl]
      rfl

/-- the values of the weights of joined models -/
def joinPv : List (List (STensor T)) → List (List (List (STensor T))) → List (List (STensor T))
  | P, [] => P
  | P, pv :: rest => joinPv (P ++ [] :: pv) rest

/-- the weights and biases `pv` have the shapes that the layers need -/
def PShapes (ls : List (LSpec T)) (pv : List (List (STensor T))) (shape : List Nat) : Prop :=
  ∀ k s, ls[k]? = some s → (pv.getD k []).map STensor.shape = s.paramShapes (outShapes (ls.take k) shape)

theorem spec_fn_shape {l : LSpec T} {p : List (STensor T)} {x : STensor T} (hp : p.map STensor.shape = l.paramShapes x.shape) : (l.fn p x).shape = l.outShape x.shape := by
  have pair_of : ∀ {a b : List Nat}, p.map STensor.shape = [a, b] → ∃ w c, p = [w, c] ∧ w.shape = a ∧ c.shape = b := by
    intro a b h
    rcases p with _ | ⟨w, _ | ⟨c, _ | ⟨e, p⟩⟩⟩
    · simp at h
    · simp at h
    · simp only [List.map_cons, List.map_nil, List.cons.injEq, and_true] at h
      exact ⟨w, c, rfl, h⟩
    · simp at h
  cases l
  case dense n a => obtain ⟨w, b, rfl, _, h⟩ := pair_of hp; exact h
  case conv => obtain ⟨w, b, rfl, _, h⟩ := pair_of hp; exact h
  case deconv => obtain ⟨w, b, rfl, _, h⟩ := pair_of hp; exact h
  all_goals rfl

theorem netFn_shape {ls : List (LSpec T)} {pv : List (List (STensor T))} {x : STensor T} (hl : pv.length = ls.length) (hp : PShapes ls pv x.shape) :
    (netFn ls pv x).shape = outShapes ls x.shape := by
  induction ls generalizing pv x with
  | nil => rfl
  | cons l ls ih =>
    cases pv with
    | nil => simp at hl
    | cons p pv =>
      have h0 : (l.fn p x).shape = l.outShape x.shape := spec_fn_shape (by simpa [outShapes] using hp 0 l rfl)
      show (netFn ls pv (l.fn p x)).shape = outShapes ls (l.outShape x.shape)
      rw [← h0]
      refine ih (by simpa using hl) fun k s hs => ?_
      have := hp (k + 1) s (by simpa using hs)
      simpa [outShapes, h0] using this

theorem joinLs_prefix (shape : List Nat) (L : List (LSpec T)) (lss : List (List (LSpec T))) : ∃ M, joinLs shape L lss = L ++ M := by
  induction lss generalizing L with
  | nil => exact ⟨[], by simp [joinLs]⟩
  | cons ls rest ih =>
    obtain ⟨M, h⟩ := ih (L ++ linkSpec (outShapes L shape) :: ls)
    exact ⟨_, by rw [joinLs, h, List.append_assoc]⟩

theorem joinPv_prefix (P : List (List (STensor T))) (pvs : List (List (List (STensor T)))) : ∃ Q, joinPv P pvs = P ++ Q := by
  induction pvs generalizing P with
  | nil => exact ⟨[], by simp [joinPv]⟩
  | cons ls rest ih =>
    obtain ⟨M, h⟩ := ih (P ++ [] :: ls)
    exact ⟨_, by rw [joinPv, h, List.append_assoc]⟩

theorem PShapes.prefix {A M : List (LSpec T)} {P Q : List (List (STensor T))} {shape : List Nat} (h : PShapes (A ++ M) (P ++ Q) shape)
    (hl : P.length = A.length) : PShapes A P shape := by
  intro k s hs
  have hk := (List.getElem?_eq_some_iff.1 hs).1
  have := h k s (by rw [List.getElem?_append_left hk]; exact hs)
  rw [List.getD_append _ _ _ _ (by omega), List.take_append_of_le_length (by omega)] at this
  exact this

theorem netFn_join {shape : List Nat} {lss : List (List (LSpec T))} {pvs : List (List (List (STensor T)))} {x : STensor T}
    (hx : x.shape = shape) (hl : List.Forall₂ (fun ls pv => pv.length = ls.length) lss pvs) {L : List (LSpec T)} {P : List (List (STensor T))}
    (hLP : P.length = L.length) (hp : PShapes (joinLs shape L lss) (joinPv P pvs) shape) :
    netFn (joinLs shape L lss) (joinPv P pvs) x = composed lss pvs (netFn L P x) := by
  induction hl generalizing L P with
  | nil => rfl
  | @cons ls pv lss pvs h1 _ ih =>
    show netFn (joinLs shape (L ++ linkSpec (outShapes L shape) :: ls) lss) (joinPv (P ++ [] :: pv) pvs) x = composed lss pvs (netFn ls pv (netFn L P x))
    rw [ih (by simp [hLP, h1]) hp]
    obtain ⟨M, hM⟩ := joinLs_prefix shape L (ls :: lss)
    obtain ⟨Q, hQ⟩ := joinPv_prefix P (pv :: pvs)
    rw [hM, hQ] at hp
    have hs := netFn_shape hLP (x := x) (by rw [hx]; exact hp.prefix hLP)
    rw [netFn_app x (by simp [hLP]), ← hLP, List.drop_left, List.take_left]
    congr 1
    show netFn ls pv ((linkSpec (outShapes L shape)).fn [] _) = _
    rw [linkSpec_fn (by rw [hs, hx])]

theorem partParams_iff {w1 w : World T} {m f n : Nat} {pv : List (List (STensor T))} (h1 : (w1.nets m).first = some f)
    (h2 : (w1.nets m).last = some (f + n)) (h : ∀ k < n, (w.layers (f + 1 + k)).pre = some (f + k)) :
    PartParams w1 w m pv ↔ List.Forall₂ (List.Forall₂ (Holds w.store.heap)) (lps w f n) pv := by
  constructor
  · rintro ⟨f', l', ps, e1, e2, hp, hv⟩
    rw [h1] at e1; rw [h2] at e2
    cases e1; cases e2
    rw [paramsFrom_unique h hp] at hv
    exact hv
  · exact fun hv => ⟨f, f + n, _, h1, h2, paramsFrom_chain h, hv⟩

/-- the weights of the joined model are those of the parts -/
theorem joined_params {w1 w : World T} {shape : List Nat} {b : Nat} {todo : List (List (LSpec T) × Nat)} {L : List (LSpec T)}
    {P : List (List (STensor T))} {pvs : List (List (List (STensor T)))}
    (hpre : ∀ k < (joinLs shape L (todo.map Prod.fst)).length, (w.layers (b + 1 + k)).pre = some (b + k))
    (hlink : ∀ k s, (joinLs shape L (todo.map Prod.fst))[k]? = some s → s.paramShapes (T := T) = (fun _ => []) → layerParams w (b + 1 + k) = [])
    (hlen : P.length = L.length)
    (hpt : PartsAt w1 todo (b + L.length + 1)) (hl : pvs.length = todo.length) (hls : List.Forall₂ (fun p pv => pv.length = p.1.length) todo pvs) :
    List.Forall₂ (List.Forall₂ (Holds w.store.heap)) (lps w b (joinLs shape L (todo.map Prod.fst)).length) (joinPv P pvs) ↔
      List.Forall₂ (List.Forall₂ (Holds w.store.heap)) (lps w b L.length) P ∧ List.Forall₂ (PartParams w1 w) (todo.map Prod.snd) pvs := by
  induction hls generalizing L P with
  | nil => simp [joinLs, joinPv]
  | @cons p pv todo pvs h1 _ ih =>
    obtain ⟨ls, m⟩ := p
    obtain ⟨p1, p2, p3⟩ := hpt
    simp only at h1
    obtain ⟨M, hM⟩ := joinLs_prefix shape (L ++ linkSpec (outShapes L shape) :: ls) (todo.map Prod.fst)
    have hM' : (joinLs shape L (((ls, m) :: todo).map Prod.fst)) = L ++ linkSpec (outShapes L shape) :: ls ++ M := hM
    have key := ih (L := L ++ linkSpec (outShapes L shape) :: ls) (P := P ++ [] :: pv) hpre hlink (by simp [hlen, h1])
      (by rw [show b + (L ++ linkSpec (outShapes L shape) :: ls).length + 1 = b + L.length + 1 + ls.length + 1 by simp; omega]; exact p3) (by simpa using hl)
    show List.Forall₂ _ (lps w b (joinLs shape (L ++ linkSpec (outShapes L shape) :: ls) (todo.map Prod.fst)).length) (joinPv (P ++ [] :: pv) pvs) ↔ _
    rw [key]
    simp only [List.map_cons, List.forall₂_cons]
    rw [partParams_iff (n := ls.length) p1 p2 fun k hk => ?_]
    · rw [← and_assoc]
      refine and_congr_left fun _ => ?_
      rw [show (L ++ linkSpec (outShapes L shape) :: ls).length = L.length + (ls.length + 1) by simp, lps_add, lps_cons,
        show b + L.length + 1 = b + 1 + L.length by omega, hlink L.length (linkSpec (outShapes L shape)) (by rw [hM']; simp) (by funext s; rfl)]
      constructor
      · intro h
        have e : ∀ (X : List (List Mat)) (h1 : X.length = P.length) Y, List.Forall₂ (List.Forall₂ (Holds w.store.heap)) (X ++ [] :: Y) (P ++ [] :: pv) →
            List.Forall₂ (List.Forall₂ (Holds w.store.heap)) X P ∧ List.Forall₂ (List.Forall₂ (Holds w.store.heap)) Y pv := by
          intro X h1 Y h
          have ha := List.forall₂_take X.length h
          have hb := List.forall₂_drop X.length h
          rw [List.take_left, h1, List.take_left] at ha
          rw [List.drop_left, h1, List.drop_left] at hb
          cases hb with
          | cons _ hb => exact ⟨ha, hb⟩
        exact e _ (by rw [lps_length, hlen]) _ h
      · rintro ⟨ha, hb⟩
        exact List.rel_append ha (.cons .nil hb)
    · have := hpre (L.length + 1 + k) (by rw [hM']; simp; omega)
      rw [show b + 1 + (L.length + 1 + k) = b + L.length + 1 + 1 + k by omega] at this
      rw [this]; congr 1; omega

theorem parts_pre {w : World T} {shape : List Nat} {b m : Nat} {ls : List (LSpec T)} {lss : List (List (LSpec T))} {L : List (LSpec T)}
    (hpre : ∀ k < (joinLs shape L (ls :: lss)).length, (w.layers (b + 1 + k)).pre = some (b + k)) :
    ∀ k < ls.length, (w.layers (b + L.length + 1 + 1 + k)).pre = some (b + L.length + 1 + k) := by
  intro k hk
  obtain ⟨M, hM⟩ := joinLs_prefix shape (L ++ linkSpec (outShapes L shape) :: ls) lss
  have := hpre (L.length + 1 + k) (by rw [joinLs, hM]; simp; omega)
  rw [show b + 1 + (L.length + 1 + k) = b + L.length + 1 + 1 + k by omega] at this
  rw [this]; congr 1; omega

theorem parts_length {w1 w : World T} {shape : List Nat} {b : Nat} {todo : List (List (LSpec T) × Nat)} {L : List (LSpec T)}
    {pvs : List (List (List (STensor T)))}
    (hpre : ∀ k < (joinLs shape L (todo.map Prod.fst)).length, (w.layers (b + 1 + k)).pre = some (b + k))
    (hpt : PartsAt w1 todo (b + L.length + 1)) (hp : List.Forall₂ (PartParams w1 w) (todo.map Prod.snd) pvs) :
    List.Forall₂ (fun p pv => pv.length = p.1.length) todo pvs := by
  induction todo generalizing L pvs with
  | nil => cases hp; exact .nil
  | cons p todo ih =>
    obtain ⟨ls, m⟩ := p
    obtain ⟨p1, p2, p3⟩ := hpt
    cases hp with
    | cons h1 h2 =>
      refine .cons ?_ (ih (L := L ++ linkSpec (outShapes L shape) :: ls) hpre
        (by rw [show b + (L ++ linkSpec (outShapes L shape) :: ls).length + 1 = b + L.length + 1 + ls.length + 1 by simp; omega]; exact p3) h2)
      have := (partParams_iff (n := ls.length) p1 p2 (parts_pre (m := m) hpre)).1 h1
      rw [← this.length_eq, lps_length]

theorem parts_exist {w1 w : World T} {shape : List Nat} {b : Nat} {todo : List (List (LSpec T) × Nat)} {L : List (LSpec T)}
    (hpre : ∀ k < (joinLs shape L (todo.map Prod.fst)).length, (w.layers (b + 1 + k)).pre = some (b + k))
    (hgood : ∀ k < (joinLs shape L (todo.map Prod.fst)).length, ∀ y ∈ layerParams w (b + 1 + k), Holds w.store.heap y (ofMat w.store.heap.val y))
    (hpt : PartsAt w1 todo (b + L.length + 1)) : ∃ pvs, List.Forall₂ (PartParams w1 w) (todo.map Prod.snd) pvs := by
  induction todo generalizing L with
  | nil => exact ⟨[], .nil⟩
  | cons p todo ih =>
    obtain ⟨ls, m⟩ := p
    obtain ⟨p1, p2, p3⟩ := hpt
    obtain ⟨pvs, h⟩ := ih (L := L ++ linkSpec (outShapes L shape) :: ls) hpre hgood
        (by rw [show b + (L ++ linkSpec (outShapes L shape) :: ls).length + 1 = b + L.length + 1 + ls.length + 1 by simp; omega]; exact p3)
    refine ⟨(lps w (b + L.length + 1) ls.length).map (fun p => p.map (ofMat w.store.heap.val)) :: pvs, .cons ?_ h⟩
    refine (partParams_iff (n := ls.length) p1 p2 (parts_pre (m := m) hpre)).2 ?_
    rw [List.forall₂_map_right_iff, List.forall₂_same]
    intro p hp
    rw [List.forall₂_map_right_iff, List.forall₂_same]
    intro y hy
    obtain ⟨k, hk, rfl⟩ := List.mem_map.1 hp
    have hk := List.mem_range.1 hk
    obtain ⟨M, hM⟩ := joinLs_prefix shape (L ++ linkSpec (outShapes L shape) :: ls) (todo.map Prod.fst)
    refine hgood (L.length + 1 + k) ?_ y ?_
    · show _ < (joinLs shape (L ++ linkSpec (outShapes L shape) :: ls) (todo.map Prod.fst)).length
      rw [hM]; simp; omega
    · rwa [show b + 1 + (L.length + 1 + k) = b + L.length + 1 + 1 + k by omega]

theorem safe_join {shape : List Nat} {lss : List (List (LSpec T))} {L : List (LSpec T)} (h : Safe (L ++ lss.flatten) shape) : Safe (joinLs shape L lss) shape := by
  induction lss generalizing L with
  | nil => simpa [joinLs] using h
  | cons ls lss ih =>
    rw [joinLs]
    apply ih
    rw [List.flatten_cons, safe_app, safe_app] at h
    rw [List.append_assoc, safe_app, List.cons_append]
    refine ⟨h.1, trivial, ?_⟩
    rw [linkSpec_out, safe_app]
    exact h.2

/-- the weights of a joined model in a later state -/
theorem Live.parts {w0 w1 : World T} {m : Nat} {shape : List Nat} {ls : List (LSpec T)} {d : CData T} {a : World T}
    {todo : List (List (LSpec T) × Nat)} {m0 : Nat} (M : MadeF False w0 w1 m shape (joinLs shape ls (todo.map Prod.fst)) d) (L : Live w0 w1 m d a)
    (hp : PartsAt w1 ((ls, m0) :: todo) d.b) :
    (∃ pvs, List.Forall₂ (PartParams w1 a) (m0 :: todo.map Prod.snd) pvs) ∧
    ∀ P pvs, List.Forall₂ (PartParams w1 a) (m0 :: todo.map Prod.snd) (P :: pvs) →
      P.length = ls.length ∧ List.Forall₂ (fun p pv => pv.length = p.1.length) todo pvs ∧ HasParams a m (joinPv P pvs) ∧
      PShapes (joinLs shape ls (todo.map Prod.fst)) (joinPv P pvs) shape := by
  have C := L.comp M
  have hpre := C.chain.pre
  obtain ⟨p1, p2, p3⟩ := hp
  obtain ⟨Mx, hMx⟩ := joinLs_prefix shape ls (todo.map Prod.fst)
  have hpre0 : ∀ k < ls.length, (a.layers (d.b + 1 + k)).pre = some (d.b + k) := fun k hk => hpre k (by rw [hMx]; simp; omega)
  have hgood : ∀ k < (joinLs shape ls (todo.map Prod.fst)).length, ∀ y ∈ layerParams a (d.b + 1 + k), Holds a.store.heap y (ofMat a.store.heap.val y) := by
    intro k hk y hy
    refine good_holds ?_
    have hr := C.pready k hk
    unfold layerParams at hy
    split at hy
    · next n1 n2 e1 e2 =>
      simp only [List.mem_cons, List.not_mem_nil, or_false] at hy
      rcases hy with rfl | rfl
      · obtain ⟨y, ry, _⟩ := hr n1 (Or.inl e1)
        rw [ry.mat]; exact ry.good
      · obtain ⟨y, ry, _⟩ := hr n2 (Or.inr e2)
        rw [ry.mat]; exact ry.good
    · simp at hy
  refine ⟨?_, fun P pvs h => ?_⟩
  · obtain ⟨pvs, h⟩ := parts_exist hpre hgood p3
    refine ⟨(lps a d.b ls.length).map (fun p => p.map (ofMat a.store.heap.val)) :: pvs, .cons ?_ h⟩
    refine (partParams_iff (n := ls.length) p1 p2 hpre0).2 ?_
    rw [List.forall₂_map_right_iff, List.forall₂_same]
    intro p hp
    rw [List.forall₂_map_right_iff, List.forall₂_same]
    intro y hy
    obtain ⟨k, hk, rfl⟩ := List.mem_map.1 hp
    exact hgood k (by rw [hMx]; have := List.mem_range.1 hk; simp; omega) y hy
  · cases h with
    | cons h1 h2 =>
      have h1' := (partParams_iff (n := ls.length) p1 p2 hpre0).1 h1
      have e1 : P.length = ls.length := by rw [← h1'.length_eq, lps_length]
      have e2 := parts_length hpre p3 h2
      have hall := (joined_params (w1 := w1) hpre (fun k s hs hz => by
        have := C.pshape k s hs
        rw [hz] at this
        simpa using this) e1 p3 e2.length_eq.symm e2).2 ⟨h1', h2⟩
      have hps : lps a d.b (joinLs shape ls (todo.map Prod.fst)).length = d.ps := C.par.symm
      rw [hps] at hall
      refine ⟨e1, e2, (L.hasParams M).2 hall, fun k s hs => ?_⟩
      rw [← C.pshape k s hs]
      have hk := (List.getElem?_eq_some_iff.1 hs).1
      have hl : k < (joinPv P pvs).length := by rw [← hall.length_eq, C.par]; simpa using hk
      have hg := (List.forall₂_iff_get.1 hall).2 k (by rw [C.par]; simpa using hk) hl
      simp only [C.par, List.get_eq_getElem, List.getElem_map, List.getElem_range] at hg
      rw [List.getD_eq_getElem _ _ hl]
      generalize (joinPv P pvs)[k] = v at hg
      generalize layerParams a (d.b + 1 + k) = u at hg
      induction hg with
      | nil => rfl
      | cons h _ ih => simp only [List.map_cons, ih, h.shape]

theorem Live.parts_of {w0 w1 : World T} {m : Nat} {shape : List Nat} {ls : List (LSpec T)} {d : CData T} {a : World T}
    {todo : List (List (LSpec T) × Nat)} {m0 : Nat} (M : MadeF False w0 w1 m shape (joinLs shape ls (todo.map Prod.fst)) d) (L : Live w0 w1 m d a)
    (hp : PartsAt w1 ((ls, m0) :: todo) d.b) {P : List (List (STensor T))} {pvs : List (List (List (STensor T)))}
    (e1 : P.length = ls.length) (e2 : List.Forall₂ (fun p pv => pv.length = p.1.length) todo pvs) (h : HasParams a m (joinPv P pvs)) :
    List.Forall₂ (PartParams w1 a) (m0 :: todo.map Prod.snd) (P :: pvs) := by
  have C := L.comp M
  have hpre := C.chain.pre
  obtain ⟨p1, p2, p3⟩ := hp
  obtain ⟨Mx, hMx⟩ := joinLs_prefix shape ls (todo.map Prod.fst)
  have hpre0 : ∀ k < ls.length, (a.layers (d.b + 1 + k)).pre = some (d.b + k) := fun k hk => hpre k (by rw [hMx]; simp; omega)
  have h' := (L.hasParams M).1 h
  have hps : lps a d.b (joinLs shape ls (todo.map Prod.fst)).length = d.ps := C.par.symm
  rw [← hps] at h'
  obtain ⟨x1, x2⟩ := (joined_params (w1 := w1) hpre (fun k s hs hz => by
        have := C.pshape k s hs
        rw [hz] at this
        simpa using this) e1 p3 e2.length_eq.symm e2).1 h'
  exact .cons ((partParams_iff (n := ls.length) p1 p2 hpre0).2 x1) x2

end Godeep
