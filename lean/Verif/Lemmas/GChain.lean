import Verif.Lemmas.GAll
import Verif.Lemmas.GDer
import Verif.Lemmas.BPChain
/-
  `BuildBackpropagation` of a sequential network of any layers.
-/
set_option linter.unusedSectionVars false

namespace Godeep
open Spec GoNum

variable {T : Type} [GoNum T]

/-! ### derivatives -/

/-- the derivative of the last of the layers `ls`, on input `x` which is the output of a layer with derivative `D` -/
def netDer : List (LSpec T) → List (List (STensor T)) → STensor T → STensor T → STensor T
  | l :: ls, p :: ps, x, D => netDer ls ps (l.fn p x) (l.der p x D)
  | _, _, _, D => D

theorem netDer_append {ls : List (LSpec T)} {s : LSpec T} {pv : List (List (STensor T))} {p : List (STensor T)}
    (h : pv.length = ls.length) (x D : STensor T) :
    netDer (ls ++ [s]) (pv ++ [p]) x D = s.der p (netFn ls pv x) (netDer ls pv x D) := by
  induction ls generalizing pv x D with
  | nil =>
    have : pv = [] := List.length_eq_zero_iff.1 h
    subst this; rfl
  | cons l ls ih =>
    cases pv with
    | nil => simp at h
    | cons q pv => exact ih (by simpa using h) _ _

/-- the layers `b`, `b + 1`, ... are a compiled network -/
structure GPre (shape : List Nat) (ls : List (LSpec T)) (b : Nat) (L : Nat → GLayer) (a0 : Activation T) (w : World T) : Prop where
  pos : 0 < w.store.heap.next
  kind0 : (w.layers b).kind = .input ∧ (w.layers b).pre = none ∧ (w.layers b).act = a0
  neta0 : (w.layers b).neta = some (L 0).out
  lay : ∀ k s, ls[k]? = some s → (w.layers (b + 1 + k)).kind = s.kind ∧ (w.layers (b + 1 + k)).pre = some (b + k) ∧
    (w.layers (b + 1 + k)).act = s.act ∧ (w.layers (b + 1 + k)).input = some (L k).out ∧
    (w.layers (b + 1 + k)).output = some (L (k + 1)).out ∧ (s.weighted = true → (w.layers (b + 1 + k)).neta = some (L (k + 1)).neta ∧
      Ready w (L (k + 1)).neta (L (k + 1)).nM ∧ (L (k + 1)).nM.shape = (L (k + 1)).oM.shape)
  out : ∀ k ≤ ls.length, Ready w (L k).out (L k).oM
  fits : Fits ls shape
  shape : ∀ k ≤ ls.length, (L k).oM.shape = outShapes (ls.take k) shape

theorem GPre.init {shape : List Nat} {ls : List (LSpec T)} {s : LSpec T} {b : Nat} {L : Nat → GLayer} {a0 : Activation T} {w : World T}
    (G : GPre shape (ls ++ [s]) b L a0 w) : GPre shape ls b L a0 w := by
  refine ⟨G.pos, G.kind0, G.neta0, fun k s' hs => G.lay k s' ?_, fun k hk => G.out k (by simp; omega), (fits_append.1 G.fits).1, fun k hk => ?_⟩
  · rw [List.getElem?_append_left (List.getElem?_eq_some_iff.1 hs).1]; exact hs
  · rw [G.shape k (by simp; omega), List.take_append_of_le_length hk]

theorem GPre.grow {shape : List Nat} {ls : List (LSpec T)} {b : Nat} {L : Nat → GLayer} {a0 : Activation T} {w w1 : World T}
    (G : GPre shape ls b L a0 w) {Q : Nat → Prop} {C : Ptr → Prop} {o : List (Op T)} (g : Grow Q C o w w1) (hq : ∀ k ≤ ls.length, ¬ Q (b + k)) :
    GPre shape ls b L a0 w1 := by
  have e : ∀ k ≤ ls.length, w1.layers (b + k) = w.layers (b + k) := fun k hk => g.layers _ (hq k hk)
  have e0 : w1.layers b = w.layers b := e 0 (Nat.zero_le _)
  refine ⟨lt_of_lt_of_le G.pos g.next, by rw [e0]; exact G.kind0, by rw [e0]; exact G.neta0, fun k s hs => ?_, fun k hk => (G.out k hk).grow g,
    G.fits, G.shape⟩
  have hk := (List.getElem?_eq_some_iff.1 hs).1
  have := e (k + 1) (by omega)
  rw [show b + (k + 1) = b + 1 + k by omega] at this
  rw [this]
  obtain ⟨h1, h2, h3, h4, h5, h6⟩ := G.lay k s hs
  exact ⟨h1, h2, h3, h4, h5, fun hw => by obtain ⟨a, b, c⟩ := h6 hw; exact ⟨a, b.grow g, c⟩⟩

/-- in `h` the derivative of the network's last layer is `D` -/
def DerEnv (shape : List Nat) (ls : List (LSpec T)) (L : Nat → GLayer) (a0 : Activation T) (h : Heap T) (D : STensor T) : Prop :=
  Safe ls shape ∧ ∃ x pv, pv.length = ls.length ∧ (∀ j ≤ ls.length, Holds h (L j).oM (netFn (ls.take j) (pv.take j) x)) ∧
    (∀ j s, ls[j]? = some s → s.weighted = true → Holds h (L (j + 1)).nM (s.neta (pv.getD j []) (netFn (ls.take j) (pv.take j) x))) ∧
    D = netDer ls pv x (x.map a0.derive)

theorem snoc_of_length {α : Type} {pv : List α} {n : Nat} (h : pv.length = n + 1) : ∃ q p, pv = q ++ [p] ∧ q.length = n := by
  have hne : pv ≠ [] := by rintro rfl; simp at h
  exact ⟨pv.dropLast, pv.getLast hne, (List.dropLast_concat_getLast hne).symm, by rw [List.length_dropLast, h]; rfl⟩

theorem DerEnv.init {shape : List Nat} {ls : List (LSpec T)} {s : LSpec T} {L : Nat → GLayer} {a0 : Activation T} {h : Heap T} {D' : STensor T}
    (E : DerEnv shape (ls ++ [s]) L a0 h D') : s.safe (outShapes ls shape) ∧ ∃ pv x D, DerEnv shape ls L a0 h D ∧
      Holds h (L ls.length).oM x ∧ Holds h (L (ls.length + 1)).oM (s.fn pv x) ∧ D' = s.der pv x D ∧
      (s.weighted = true → Holds h (L (ls.length + 1)).nM (s.neta pv x)) := by
  obtain ⟨hs, x, pv, hl, ho, hn, rfl⟩ := E
  obtain ⟨q, p, rfl, hq⟩ := snoc_of_length (n := ls.length) (by simpa using hl)
  obtain ⟨s1, s2⟩ := safe_append.1 hs
  have ht : ∀ j ≤ ls.length, (ls ++ [s]).take j = ls.take j ∧ (q ++ [p]).take j = q.take j := fun j hj =>
    ⟨List.take_append_of_le_length hj, List.take_append_of_le_length (by omega)⟩
  refine ⟨s2, p, netFn ls q x, netDer ls q x (x.map a0.derive), ⟨s1, x, q, hq, fun j hj => ?_, fun j s' hs' hw => ?_, rfl⟩, ?_, ?_, netDer_append hq _ _, fun hw => ?_⟩
  · have := ho j (by simp; omega)
    rwa [(ht j hj).1, (ht j hj).2] at this
  · have hj := (List.getElem?_eq_some_iff.1 hs').1
    have := hn j s' (by rw [List.getElem?_append_left hj]; exact hs') hw
    rw [(ht j (by omega)).1, (ht j (by omega)).2] at this
    rw [List.getD_append _ _ _ _ (by omega)] at this
    exact this
  · have := ho ls.length (by simp)
    rw [(ht _ (Nat.le_refl _)).1, (ht _ (Nat.le_refl _)).2, List.take_length, List.take_of_length_le (by omega)] at this
    exact this
  · have := ho (ls.length + 1) (by simp)
    rw [List.take_of_length_le (by simp), List.take_of_length_le (by simp [hq]), netFn_append hq] at this
    exact this
  · have := hn ls.length s (by simp) hw
    rw [(ht _ (Nat.le_refl _)).1, (ht _ (Nat.le_refl _)).2, List.take_length, List.take_of_length_le (by omega)] at this
    have e : (q ++ [p]).getD ls.length [] = p := by simp [← hq]
    rw [e] at this
    exact this

/-- building the derivative of the last of the layers `ls`; the layers behind layer `r` have no weights -/
theorem buildDer_ok {shape : List Nat} {b : Nat} {L : Nat → GLayer} {a0 : Activation T} (r : Nat) :
    ∀ (ls : List (LSpec T)) (fuel : Nat) (w : World T), GPre shape ls b L a0 w → r ≤ ls.length →
      (r = 0 ∨ ∃ s, ls[r - 1]? = some s ∧ s.weighted = true) → (∀ i s, r ≤ i → ls[i]? = some s → s.weighted = false) →
      (∀ j, r ≤ j → j ≤ ls.length → (w.layers (b + j)).der = none) → ls.length < fuel →
      wp True (LayerM.buildDer fuel (b + ls.length)) (DerPost (b + r) (b + ls.length) (L ls.length).oM (DerEnv shape ls L a0) (Safe ls shape) w) w := by
  intro ls
  induction ls using List.reverseRecOn with
  | nil =>
    intro fuel w G hr _ _ hd hf
    obtain ⟨f, rfl⟩ : ∃ f, fuel = f + 1 := ⟨fuel - 1, by omega⟩
    have hr0 : r = 0 := by simpa using hr
    subst hr0
    have hd0 := hd 0 (Nat.le_refl _) (Nat.zero_le _)
    simp only [List.length_nil, Nat.add_zero] at hd0 ⊢
    unfold LayerM.buildDer
    refine wp_bind (wp_layer ?_)
    rw [G.kind0.1, G.kind0.2.1]
    simp only [hd0]
    refine wp_baseDer G.pos (Nat.le_refl _) G.neta0 (G.out 0 (Nat.zero_le _)) rfl fun h D E => ?_
    obtain ⟨_, x, pv, hl, ho, _, rfl⟩ := E
    have := ho 0 (Nat.zero_le _)
    have hpv : pv = [] := List.length_eq_zero_iff.1 hl
    subst hpv
    exact ⟨x, by simpa [netFn] using this, by rw [G.kind0.2.2]; rfl⟩
  | append_singleton ls s ih =>
    intro fuel w G hr hw hu hd hf
    obtain ⟨f, rfl⟩ : ∃ f, fuel = f + 1 := ⟨fuel - 1, by omega⟩
    have hlen : (ls ++ [s]).length = ls.length + 1 := by simp
    obtain ⟨n, hn⟩ : ∃ n, n = ls.length := ⟨_, rfl⟩
    obtain ⟨h1, h2, h3, h4, h5, h6⟩ := G.lay ls.length s (by simp)
    have hd1 := hd (n + 1) (by omega) (by omega)
    rw [hlen] at hr hf ⊢
    rw [← hn] at h1 h2 h3 h4 h5 h6 hr hf ⊢
    rw [show b + (n + 1) = b + 1 + n by omega] at hd1 ⊢
    by_cases hr1 : r = n + 1
    · -- a layer with weights
      have hsw : s.weighted = true := by
        rcases hw with h | ⟨s', h, hw⟩
        · omega
        · rw [hr1, hn] at h
          simp at h
          rw [h]; exact hw
      obtain ⟨n1, n2, n3⟩ := h6 hsw
      have base : wp True (LayerM.baseDer (b + 1 + n)) (DerPost (b + r) (b + 1 + n) (L (n + 1)).oM (DerEnv shape (ls ++ [s]) L a0)
          (Safe (ls ++ [s]) shape) w) w := by
        refine wp_baseDer G.pos (by omega) n1 n2 n3 fun h D E => ?_
        obtain ⟨_, pv, x, D, _, _, _, rfl, hne⟩ := E.init
        refine ⟨s.neta pv x, by rw [hn]; exact hne hsw, ?_⟩
        rw [h3]
        cases s <;> first | rfl | simp [LSpec.weighted] at hsw
      unfold LayerM.buildDer
      refine wp_bind (wp_layer ?_)
      rw [h1, h2]
      cases s <;> simp only [LSpec.kind, hd1] <;> first | exact base | simp [LSpec.weighted] at hsw
    · have hsw : s.weighted = false := hu n s (by omega) (by rw [hn]; simp)
      have G1 := G.init
      have D : DerIn s w f (b + r) (b + 1 + n) (b + n) (L n) (L (n + 1)) (DerEnv shape ls L a0) (DerEnv shape (ls ++ [s]) L a0)
          (Safe ls shape) (Safe (ls ++ [s]) shape) := by
        have so := G.shape (n + 1) (by omega)
        have si := G1.shape n (by omega)
        rw [List.take_of_length_le (by omega)] at so
        rw [List.take_of_length_le (by omega)] at si
        refine ⟨G.pos, by omega, h2, h4, h5, G.out n (by omega), G.out (n + 1) (by omega), ?_, ?_, fun w1 g => ?_, fun h D' E => ?_, fun hs => ?_⟩
        · rw [so, si, outShapes_append]
        · rw [si]; exact (fits_append.1 G.fits).2
        · have := ih f w1 (G1.grow g fun k hk => by omega) (by omega) (by
            rcases hw with h | ⟨s', h, hw⟩
            · exact Or.inl h
            · rcases Nat.eq_zero_or_pos r with h0 | h0
              · exact Or.inl h0
              · rw [List.getElem?_append_left (by omega)] at h
                exact Or.inr ⟨s', h, hw⟩) (fun i s' hi hs' => hu i s' hi (by
              rw [List.getElem?_append_left (List.getElem?_eq_some_iff.1 hs').1]; exact hs')) (fun j h1 h2 => by
              rw [g.layers _ (by omega)]; exact hd j h1 (by omega)) (by omega)
          rw [← hn] at this
          exact this
        · obtain ⟨e1, pv, x, D, e2, e3, e4, e5, _⟩ := E.init
          rw [si]
          rw [← hn] at e3 e4
          exact ⟨e1, pv, x, D, e2, e3, e4, e5⟩
        · rw [si]; exact safe_append.1 hs
      unfold LayerM.buildDer
      refine wp_bind (wp_layer ?_)
      rw [h1]
      cases s with
      | dense _ _ => simp [LSpec.weighted] at hsw
      | conv _ _ _ _ _ _ => simp [LSpec.weighted] at hsw
      | deconv _ _ _ _ _ _ => simp [LSpec.weighted] at hsw
      | flatten => simp only [LSpec.kind, hd1]; exact wp_der_flatten D
      | softMax => simp only [LSpec.kind, hd1]; exact wp_der_same D (fun _ _ _ => rfl) fun _ => rfl
      | norm => simp only [LSpec.kind, hd1]; exact wp_der_same D (fun _ _ _ => rfl) fun _ => rfl
      | eNorm => simp only [LSpec.kind, hd1]; exact wp_der_same D (fun _ _ _ => rfl) fun _ => rfl
      | sub d f t => simp only [LSpec.kind, hd1]; exact wp_der_sub D
      | maxPool sx sy => simp only [LSpec.kind, hd1]; exact wp_der_maxPool D
      | upSampling k => simp only [LSpec.kind, hd1]; exact wp_der_upSampling D

/-! ### one step of `BuildBackpropagation` -/

theorem backProp_step {alpha momentum : Ptr} {f l : Nat} {w : World T} {s : LSpec T} (hbp : (w.layers l).bp = false)
    (hk : (w.layers l).kind = s.kind) {p : Nat} (hp : (w.layers l).pre = some p) (hr : 0 < (w.layers l).ref)
    (hv : eq (w.store.heap.val (w.layers l).ref) zero = false) :
    LayerM.backProp alpha momentum (f + 1) l w = ((do
      bpOwn alpha momentum f l s.kind
      LayerM.backProp alpha momentum f p : Run T Unit)) (updL l (fun x => { x with bp := true }) w) := by
  conv_lhs => unfold LayerM.backProp
  show ((if (w.layers l).bp then pure () else _ : Run T Unit)) w = _
  rw [hbp]
  show (Run.value (w.layers l).ref w).bind _ = _
  rw [value_ok hr]
  show (if eq (w.store.heap.val (w.layers l).ref) zero then _ else _ : Run T Unit) w = _
  rw [hv, hk, hp]
  cases s <;> rfl

/-! ### the network -/

theorem fits_take {ls : List (LSpec T)} {sh : List Nat} (h : Fits ls sh) (k : Nat) : Fits (ls.take k) sh := by
  induction ls generalizing sh k with
  | nil => simpa using h
  | cons a ls ih => cases k with
    | zero => trivial
    | succ k => exact ⟨h.1, ih h.2 k⟩

theorem safe_take {ls : List (LSpec T)} {sh : List Nat} (h : Safe ls sh) (k : Nat) : Safe (ls.take k) sh := by
  induction ls generalizing sh k with
  | nil => simpa using h
  | cons a ls ih => cases k with
    | zero => trivial
    | succ k => exact ⟨h.1, ih h.2 k⟩

theorem fits_at {ls : List (LSpec T)} {sh : List Nat} (h : Fits ls sh) {k : Nat} {s : LSpec T} (hs : ls[k]? = some s) :
    s.fits (outShapes (ls.take k) sh) := by
  induction ls generalizing sh k with
  | nil => simp at hs
  | cons a ls ih => cases k with
    | zero => simp at hs; subst hs; exact h.1
    | succ k => exact ih h.2 (by simpa using hs)

theorem take_snoc {α : Type} {ls : List α} {k : Nat} {s : α} (hs : ls[k]? = some s) : ls.take (k + 1) = ls.take k ++ [s] := by
  rw [List.take_succ, hs]; rfl

theorem take_take_le {α : Type} (ls : List α) {j k : Nat} (h : j ≤ k) : (ls.take k).take j = ls.take j := by
  rw [List.take_take, Nat.min_eq_left h]

theorem GPre.take {shape : List Nat} {ls : List (LSpec T)} {b : Nat} {L : Nat → GLayer} {a0 : Activation T} {w : World T}
    (G : GPre shape ls b L a0 w) (k : Nat) : GPre shape (ls.take k) b L a0 w := by
  have hl : (ls.take k).length ≤ k ∧ (ls.take k).length ≤ ls.length := by rw [List.length_take]; omega
  refine ⟨G.pos, G.kind0, G.neta0, fun j s hs => G.lay j s ?_, fun j hj => G.out j (by omega), fits_take G.fits k, fun j hj => ?_⟩
  · rw [List.getElem?_take] at hs
    split at hs
    · exact hs
    · cases hs
  · rw [G.shape j (by omega), take_take_le _ (by omega)]

theorem Layer.maxScalar_fwd {x y : Layer T} (h : x.fwd = y.fwd) : x.maxScalar = y.maxScalar := (congrArg Layer.maxScalar h :)

theorem GStep.ext {s : LSpec T} {l : Nat} {P X : GLayer} {w w' : World T} (S : GStep s l P X w) (g : Ext w w')
    (hf : (w'.layers l).fwd = (w.layers l).fwd) : GStep s l P X w' := by
  obtain ⟨i1, i2, i3, i4, i5, i6, i7, i8, i9, i10, i11, i12⟩ := Layer.fwd_eq hf
  refine ⟨by rw [i5]; exact S.input, ?_, fun n hn => ?_, by rw [i3, i4]; exact S.both, S.share, fun hw => ?_, fun hs => ?_⟩
  · rw [← S.par]
    unfold layerParams
    rw [i3, i4]
    rcases e1 : (w.layers l).weights with _ | a
    · rfl
    · rcases e2 : (w.layers l).bias with _ | c
      · rfl
      · obtain ⟨m1, r1, _⟩ := S.pready a (Or.inl e1)
        obtain ⟨m2, r2, _⟩ := S.pready c (Or.inr e2)
        simp only [(r1.ext g).mat, r1.mat, (r2.ext g).mat, r2.mat]
  · rw [i3, i4] at hn
    obtain ⟨m, r, h⟩ := S.pready n hn
    exact ⟨m, r.ext g, h⟩
  · obtain ⟨a, c, d⟩ := S.neta hw
    exact ⟨by rw [i6]; exact a, c.ext g, d⟩
  · obtain ⟨a, c, d⟩ := S.mx hs
    exact ⟨by rw [Layer.maxScalar_fwd hf]; exact a, c, lt_of_lt_of_le d g.next⟩

/-- which scalars the tensors of the network share -/
structure GSep (ls : List (LSpec T)) (L : Nat → GLayer) (lo : Nat) : Prop where
  low : ∀ j ≤ ls.length, ∀ q ∈ (L j).dM.ops, lo ≤ q
  out : ∀ j ≤ ls.length, ∀ q ∈ (L j).dM.ops, ∀ k ≤ ls.length, q ∉ (L k).oM.ops
  par : ∀ j ≤ ls.length, ∀ q ∈ (L j).dM.ops, ∀ k s, ls[k]? = some s → (s.weighted = true → q ∉ (L (k + 1)).nM.ops) ∧
    (∀ m ∈ (L (k + 1)).ps, q ∉ m.ops) ∧ (s = .norm ∨ s = .eNorm → q ≠ (L (k + 1)).mx)
  disj : ∀ j k, j < k → k ≤ ls.length → (∃ i, j ≤ i ∧ i < k ∧ ls[i]? ≠ some .softMax) → ∀ q ∈ (L j).dM.ops, q ∉ (L k).dM.ops
  shape : ∀ k ≤ ls.length, (L k).dM.shape = (L k).oM.shape ∧ (L k).dM.ops.Nodup

/-- the layers `b`, `b + 1`, ... are a network that is ready for back-propagation -/
structure GAt (shape : List Nat) (ls : List (LSpec T)) (b : Nat) (L : Nat → GLayer) (a0 : Activation T) (lo : Nat) (w : World T) : Prop
    extends GPre shape ls b L a0 w where
  le : lo ≤ w.store.heap.next
  gdif : ∀ k ≤ ls.length, (w.layers (b + k)).dif = some (L k).dif ∧ Ready w (L k).dif (L k).dM ∧ (w.store.nodes (L k).dif).kind = .leaf
  step : ∀ k s, ls[k]? = some s → GStep s (b + 1 + k) (L k) (L (k + 1)) w
  spar : ∀ k s, ls[k]? = some s → (L (k + 1)).ps.map Mat.shape = s.paramShapes (L k).oM.shape
  ref : ∀ k ≤ ls.length, 0 < (w.layers (b + k)).ref ∧ (w.layers (b + k)).ref < lo ∧
    ∃ j ≤ ls.length, w.store.heap.val (w.layers (b + k)).ref = uses (ls.drop j)
  count : ∀ k ≤ ls.length, (k = 0 ∨ ls[k - 1]? ≠ some .flatten) → w.store.heap.val (w.layers (b + k)).ref = uses (ls.drop k)

theorem GAt.later {shape : List Nat} {ls : List (LSpec T)} {b : Nat} {L : Nat → GLayer} {a0 : Activation T} {lo : Nat} {w w' : World T}
    (G : GAt shape ls b L a0 lo w) (g : Ext w w') (hl : ∀ k ≤ ls.length, (w'.layers (b + k)).fwd = (w.layers (b + k)).fwd)
    (hv : ∀ k ≤ ls.length, w'.store.heap.val (w.layers (b + k)).ref = w.store.heap.val (w.layers (b + k)).ref) :
    GAt shape ls b L a0 lo w' := by
  have e0 := Layer.fwd_eq (hl 0 (Nat.zero_le _))
  rw [Nat.add_zero] at e0
  have hl1 : ∀ k s, ls[k]? = some s → (w'.layers (b + 1 + k)).fwd = (w.layers (b + 1 + k)).fwd := fun k s hs => by
    have := hl (k + 1) (List.getElem?_eq_some_iff.1 hs).1
    rwa [show b + (k + 1) = b + 1 + k by omega] at this
  refine ⟨⟨lt_of_lt_of_le G.pos g.next, ⟨by rw [e0.1]; exact G.kind0.1, by rw [e0.2.1]; exact G.kind0.2.1, ?_⟩,
    by rw [e0.2.2.2.2.2.1]; exact G.neta0, fun k s hs => ?_, fun k hk => (G.out k hk).ext g, G.fits, G.shape⟩, le_trans G.le g.next, fun k hk => ?_,
    fun k s hs => (G.step k s hs).ext g (hl1 k s hs), G.spar, fun k hk => ?_, fun k hk h => ?_⟩
  · rw [e0.2.2.2.2.2.2.2.2.2.1]; exact G.kind0.2.2
  · obtain ⟨i1, i2, i3, i4, i5, i6, i7, i8, i9, i10, i11, i12⟩ := Layer.fwd_eq (hl1 k s hs)
    obtain ⟨a1, a2, a3, a4, a5, a6⟩ := G.lay k s hs
    exact ⟨by rw [i1, a1], by rw [i2, a2], by rw [i10, a3], by rw [i5, a4], by rw [i7, a5], fun hw => by
      obtain ⟨x, y, z⟩ := a6 hw
      exact ⟨by rw [i6, x], y.ext g, z⟩⟩
  · obtain ⟨a1, a2, a3⟩ := G.gdif k hk
    exact ⟨by rw [(Layer.fwd_eq (hl k hk)).2.2.2.2.2.2.2.1, a1], a2.ext g, by rw [g.kind _ a2.lt, a3]⟩
  · rw [(Layer.fwd_eq (hl k hk)).2.2.2.2.2.2.2.2.1, hv k hk]
    exact G.ref k hk
  · rw [(Layer.fwd_eq (hl k hk)).2.2.2.2.2.2.2.2.1, hv k hk]
    exact G.count k hk h

/-- the last layer with weights among the first `k` layers, or the input layer -/
def root (ls : List (LSpec T)) : Nat → Nat
  | 0 => 0
  | k + 1 => if (ls[k]?.map LSpec.weighted) = some true then k + 1 else root ls k

theorem root_le (ls : List (LSpec T)) (k : Nat) : root ls k ≤ k := by
  induction k with
  | zero => exact Nat.le_refl _
  | succ k ih => unfold root; split <;> omega

theorem root_weighted (ls : List (LSpec T)) (k : Nat) : root ls k = 0 ∨ ∃ s, ls[root ls k - 1]? = some s ∧ s.weighted = true := by
  induction k with
  | zero => exact Or.inl rfl
  | succ k ih =>
    unfold root
    split
    · rename_i h
      right
      obtain ⟨s, h1, h2⟩ := Option.map_eq_some_iff.1 h
      exact ⟨s, by simpa using h1, h2⟩
    · exact ih

theorem root_behind (ls : List (LSpec T)) (k : Nat) : ∀ i s, root ls k ≤ i → i < k → ls[i]? = some s → s.weighted = false := by
  induction k with
  | zero => intro i s _ h; omega
  | succ k ih =>
    intro i s h1 h2 hs
    unfold root at h1
    split at h1
    · omega
    · rename_i h
      rcases Nat.lt_or_ge i k with h3 | h3
      · exact ih i s h1 h3 hs
      · have : i = k := by omega
        subst this
        cases hw : s.weighted
        · rfl
        · exact absurd (by rw [hs]; simp [hw]) h

end Godeep
