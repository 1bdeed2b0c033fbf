import Verif.Lemmas.Dense
import Verif.Spec.Learn
/-
  The operations of one layer, or of several, and what executing them computes.
-/
set_option linter.unusedSectionVars false

namespace Godeep
open Spec GoNum

variable {T : Type} [GoNum T]

/-- Operations that compute tensor `outM` from tensor `inM` with the parameters `ps`.  The scalars they
use were allocated from `lo` to `hi`, except those in `own`.  `K q c`: scalar `q` must hold `c`. -/
structure Stage (lo hi : Nat) (own : Ptr → Prop) (ops : List (Op T)) (inM outM : Mat) (ps : List (List Mat))
    (K : Ptr → T → Prop) (F : List (List (STensor T)) → STensor T → STensor T) (safe : Prop) : Prop where
  dst : ∀ q ∈ dsts ops, (lo ≤ q ∧ q < hi) ∨ own q
  out : ∀ q ∈ outM.ops, q ∈ inM.ops ∨ (lo ≤ q ∧ q < hi) ∨ own q
  par : ∀ p ∈ ps, ∀ m ∈ p, ∀ q ∈ m.ops, lo ≤ q ∧ q < hi ∧ q ∉ dsts ops
  opar : ∀ p ∈ ps, ∀ m ∈ p, ∀ q ∈ m.ops, q ∉ outM.ops
  keep : ∀ q c, K q c → lo ≤ q ∧ q < hi ∧ q ∉ dsts ops ∧ ∀ p ∈ ps, ∀ m ∈ p, q ∉ m.ops
  run : ∀ h h' x pv, hi ≤ h.next → (∀ q c, K q c → h.val q = c) → Holds h inM x →
    List.Forall₂ (List.Forall₂ (Holds h)) ps pv → exec ops h = .ok () h' → Holds h' outM (F pv x)
  fine : safe → ∀ o ∈ ops, Fine o

theorem _root_.Godeep.Spec.Holds.kept {h h' : Heap T} {m : Mat} {t : STensor T} (H : Holds h m t) (hn : h.next ≤ h'.next)
    (hv : ∀ q ∈ m.ops, h'.val q = h.val q) : Holds h' m t := by
  have g : GoodMat h m := ⟨H.mul, H.len, H.valid⟩
  refine holds_of_cell (g.mono hn) H.shape fun idx hi => ?_
  rw [hv _ (cell_mem g hi), holds_cell H hi]

theorem Stage.nil (lo : Nat) (m : Mat) : Stage lo lo (fun _ => False) ([] : List (Op T)) m m [] (fun _ _ => False)
    (fun _ x => x) True := by
  refine ⟨by simp, fun q hq => Or.inl hq, by simp, by simp, fun _ _ h => h.elim, fun h h' x pv _ _ H _ he => ?_, by simp⟩
  simp only [exec, Out.ok.injEq, true_and] at he
  subst he; exact H

theorem Stage.comp {lo mid hi : Nat} {own1 own2 : Ptr → Prop} {o1 o2 : List (Op T)} {a b c : Mat}
    {p1 p2 : List (List Mat)} {K1 K2 : Ptr → T → Prop} {F1 F2 : List (List (STensor T)) → STensor T → STensor T}
    {s1 s2 : Prop} (S1 : Stage lo mid own1 o1 a b p1 K1 F1 s1) (S2 : Stage mid hi own2 o2 b c p2 K2 F2 s2)
    (h1 : lo ≤ mid) (h2 : mid ≤ hi) (w1 : ∀ q, own1 q → q < lo) (w2 : ∀ q, own2 q → q < lo) :
    Stage lo hi (fun q => own1 q ∨ own2 q) (o1 ++ o2) a c (p1 ++ p2) (fun q v => K1 q v ∨ K2 q v)
      (fun pv x => F2 (pv.drop p1.length) (F1 (pv.take p1.length) x)) (s1 ∧ s2) := by
  have d1 : ∀ q ∈ dsts o1, q < mid := fun q hq => by
    rcases S1.dst q hq with h | h
    · exact h.2
    · have := w1 q h; omega
  have d2 : ∀ q ∈ dsts o2, mid ≤ q ∨ q < lo := fun q hq => by
    rcases S2.dst q hq with h | h
    · exact Or.inl h.1
    · exact Or.inr (w2 q h)
  refine ⟨fun q hq => ?_, fun q hq => ?_, fun p hp m hm q hq => ?_, fun p hp m hm q hq hc => ?_, fun q v hk => ?_, ?_,
    fun hs o ho => ?_⟩
  · rw [dsts_append, List.mem_append] at hq
    rcases hq with hq | hq
    · rcases S1.dst q hq with h | h
      · exact Or.inl ⟨h.1, by omega⟩
      · exact Or.inr (Or.inl h)
    · rcases S2.dst q hq with h | h
      · exact Or.inl ⟨by omega, h.2⟩
      · exact Or.inr (Or.inr h)
  · rcases S2.out q hq with h | h | h
    · rcases S1.out q h with h | h | h
      · exact Or.inl h
      · exact Or.inr (Or.inl ⟨h.1, by omega⟩)
      · exact Or.inr (Or.inr (Or.inl h))
    · exact Or.inr (Or.inl ⟨by omega, h.2⟩)
    · exact Or.inr (Or.inr (Or.inr h))
  · rw [dsts_append, List.mem_append]
    rcases List.mem_append.1 hp with hp | hp
    · obtain ⟨x1, x2, x3⟩ := S1.par p hp m hm q hq
      refine ⟨x1, by omega, ?_⟩
      rintro (h | h)
      · exact x3 h
      · have := d2 q h; omega
    · obtain ⟨x1, x2, x3⟩ := S2.par p hp m hm q hq
      refine ⟨by omega, x2, ?_⟩
      rintro (h | h)
      · have := d1 q h; omega
      · exact x3 h
  · rcases List.mem_append.1 hp with hp | hp
    · obtain ⟨x1, x2, _⟩ := S1.par p hp m hm q hq
      rcases S2.out q hc with h | h | h
      · exact S1.opar p hp m hm q hq h
      · omega
      · have := w2 q h; omega
    · exact S2.opar p hp m hm q hq hc
  · rw [dsts_append, List.mem_append]
    rcases hk with hk | hk
    · obtain ⟨x1, x2, x3, x4⟩ := S1.keep q v hk
      refine ⟨x1, by omega, ?_, fun p hp m hm hq => ?_⟩
      · rintro (h | h)
        · exact x3 h
        · have := d2 q h; omega
      · rcases List.mem_append.1 hp with hp | hp
        · exact x4 p hp m hm hq
        · have := (S2.par p hp m hm q hq).1; omega
    · obtain ⟨x1, x2, x3, x4⟩ := S2.keep q v hk
      refine ⟨by omega, x2, ?_, fun p hp m hm hq => ?_⟩
      · rintro (h | h)
        · have := d1 q h; omega
        · exact x3 h
      · rcases List.mem_append.1 hp with hp | hp
        · have := (S1.par p hp m hm q hq).2.1; omega
        · exact x4 p hp m hm hq
  · intro h h' x pv hn hK H hps he
    rw [exec_append_ok] at he
    obtain ⟨hm, e1, e2⟩ := he
    obtain ⟨f1, f2⟩ := exec_frame e1
    have hpt := List.forall₂_take_append pv p1 p2 (List.Forall₂.flip hps)
    have hpd := List.forall₂_drop_append pv p1 p2 (List.Forall₂.flip hps)
    have H1 := S1.run h hm x (pv.take p1.length) (by omega) (fun q c hk => hK q c (Or.inl hk)) H hpt.flip e1
    refine S2.run hm h' _ (pv.drop p1.length) (by omega) (fun q c hk => ?_) H1 ?_ e2
    · rw [f2 q (fun hq => by have := d1 q hq; have := (S2.keep q c hk).1; omega)]
      exact hK q c (Or.inr hk)
    · have hpd' := hpd.flip
      rw [List.forall₂_iff_get] at hpd' ⊢
      refine ⟨hpd'.1, fun i hi1 hi2 => ?_⟩
      have := hpd'.2 i hi1 hi2
      rw [List.forall₂_iff_get] at this ⊢
      refine ⟨this.1, fun j hj1 hj2 => ?_⟩
      refine (this.2 j hj1 hj2).kept (by omega) fun q hq => f2 q fun hd => ?_
      have h4 := (S2.par _ (List.get_mem p2 ⟨i, hi1⟩) _ (List.get_mem _ ⟨j, hj1⟩) q hq).1
      have := d1 q hd
      omega
  · rcases List.mem_append.1 ho with ho | ho
    · exact S1.fine hs.1 o ho
    · exact S2.fine hs.2 o ho

theorem Stage.mono {lo hi hi' : Nat} {own own' : Ptr → Prop} {ops : List (Op T)} {a b : Mat}
    {ps : List (List Mat)} {K : Ptr → T → Prop} {F F' : List (List (STensor T)) → STensor T → STensor T}
    {s s' : Prop} (S : Stage lo hi own ops a b ps K F s) (h : hi ≤ hi') (ho : ∀ q, own q → own' q)
    (hF : ∀ pv x, pv.length = ps.length → F pv x = F' pv x) (hs : s' → s) : Stage lo hi' own' ops a b ps K F' s' := by
  refine ⟨fun q hq => ?_, fun q hq => ?_, fun p hp m hm q hq => ?_, S.opar, fun q c hk => ?_, ?_, fun h => S.fine (hs h)⟩
  · rcases S.dst q hq with h | h
    · exact Or.inl ⟨h.1, by omega⟩
    · exact Or.inr (ho q h)
  · rcases S.out q hq with h | h | h
    · exact Or.inl h
    · exact Or.inr (Or.inl ⟨h.1, by omega⟩)
    · exact Or.inr (Or.inr (ho q h))
  · obtain ⟨x1, x2, x3⟩ := S.par p hp m hm q hq
    exact ⟨x1, by omega, x3⟩
  · obtain ⟨x1, x2, x3, x4⟩ := S.keep q c hk
    exact ⟨x1, by omega, x3, x4⟩
  · intro h h' x pv hn hK H hps he
    rw [← hF pv x hps.length_eq.symm]
    exact S.run h h' x pv (by omega) hK H hps he

/-- the kind of layer a constructor makes -/
def _root_.Godeep.Spec.LSpec.kind : LSpec T → LKind T
  | .dense _ _ => .dense
  | .flatten => .flatten
  | .softMax => .softMax
  | .norm => .norm zero one
  | .eNorm => .norm (neg one) one
  | .sub d f t => .sub d f t
  | .conv nf kw kh sx sy _ => .conv nf kw kh sx sy
  | .deconv nf kw kh sx sy _ => .deconv nf kw kh sx sy
  | .maxPool sx sy => .maxPool sx sy
  | .upSampling s => .upSampling s s

/-- its activation -/
def _root_.Godeep.Spec.LSpec.act : LSpec T → Activation T
  | .dense _ a => a
  | .conv _ _ _ _ _ a => a
  | .deconv _ _ _ _ _ a => a
  | _ => .linear

/-- what building the feed-forward part of layer `l` has done; `R` are the reference counters it
changed -/
structure FFDone (s : LSpec T) (l : Nat) (own : Ptr → Prop) (R : Ptr → Prop) (inM : Mat) (ops : List (Op T))
    (out : Nat) (outM : Mat) (K : Ptr → T → Prop) (w w' : World T) : Prop where
  grow : Grow (· = l) R ops w w'
  kind : (w'.layers l).kind = (w.layers l).kind
  pre : (w'.layers l).pre = (w.layers l).pre
  act : (w'.layers l).act = (w.layers l).act
  ff : (w'.layers l).ff = (w.layers l).ff
  flags : (w'.layers l).trainable = (w.layers l).trainable ∧ (w'.layers l).bp = (w.layers l).bp ∧
    (w'.layers l).saved = (w.layers l).saved ∧ (w'.layers l).loaded = (w.layers l).loaded ∧
    (w'.layers l).build = (w.layers l).build
  ref : (w'.layers l).ref = (w.layers l).ref ∨ R (w'.layers l).ref
  output : (w'.layers l).output = some out
  ready : Ready w' out outM
  shape : outM.shape = s.outShape inM.shape
  pshape : (layerParams w' l).map Mat.shape = s.paramShapes inM.shape
  stage : Stage w.store.heap.next w'.store.heap.next own ops inM outM [layerParams w' l] K
    (fun pv x => s.fn (pv.headD []) x) (s.safe inM.shape)
  kept : ∀ q c, K q c → w'.store.heap.val q = c
  pready : ∀ n, ((w'.layers l).weights = some n ∨ (w'.layers l).bias = some n) → ∃ m, Ready w' n m ∧ m.ops.Nodup
  both : (w'.layers l).weights = none ↔ (w'.layers l).bias = none
  pdist : ((layerParams w' l).flatMap Mat.ops).Nodup

/-- tensor `d` is the new plain tensor `dM`, apart from what else the layer uses -/
structure DifAt (l d : Nat) (dM : Mat) (ops : List (Op T)) (outM : Mat) (K : Ptr → T → Prop) (w w' : World T) : Prop where
  ready : Ready w' d dM
  leaf : (w'.store.nodes d).kind = .leaf
  shape : dM.shape = outM.shape
  nodup : dM.ops.Nodup
  fresh : ∀ q ∈ dM.ops, w.store.heap.next ≤ q ∧ q ∉ dsts ops ∧ q ∉ outM.ops ∧ (∀ c, ¬ K q c) ∧
    ∀ m ∈ layerParams w' l, q ∉ m.ops

/-- `p` and the layers before it are input layers that are connected to the layer before them, up to layer `r`, `n` steps away -/
inductive Via (w : World T) : Nat → Nat → Nat → Prop
  | one {p r : Nat} : (w.layers p).kind = .input → (w.layers p).pre = some r → Via w 1 p r
  | more {n p q r : Nat} : (w.layers p).kind = .input → (w.layers p).pre = some q → Via w n q r → Via w (n + 1) p r

/-- the outputs of layer `p` are those of layer `r`: `r` is `p` itself, or the layer that the input layer `p` is connected to -/
def Source (w : World T) (p r : Nat) : Prop :=
  ((w.layers r).pre = none ∨ ∃ s' : LSpec T, (w.layers r).kind = s'.kind) ∧ (p = r ∨ ∃ n, Via w n p r)

theorem Via.start {w : World T} {n p r : Nat} (h : Via w n p r) : (w.layers p).kind = .input ∧ ∃ q, (w.layers p).pre = some q := by
  cases h with
  | one h1 h2 => exact ⟨h1, _, h2⟩
  | more h1 h2 _ => exact ⟨h1, _, h2⟩

theorem Via.no {w : World T} {n p r : Nat} (h : (w.layers p).pre = none ∨ ∃ s' : LSpec T, (w.layers p).kind = s'.kind) : ¬ Via w n p r := by
  intro v
  obtain ⟨h1, q, h2⟩ := v.start
  rcases h with h | ⟨s, h⟩
  · rw [h] at h2; cases h2
  · rw [h1] at h; cases s <;> cases h

theorem Via.unique {w : World T} {n n' p r r' : Nat} (v : Via w n p r) (v' : Via w n' p r')
    (h : (w.layers r).pre = none ∨ ∃ s' : LSpec T, (w.layers r).kind = s'.kind)
    (h' : (w.layers r').pre = none ∨ ∃ s' : LSpec T, (w.layers r').kind = s'.kind) : r = r' := by
  induction v generalizing n' with
  | one h1 h2 =>
    cases v' with
    | one h3 h4 => rw [h2] at h4; exact Option.some.inj h4
    | more h3 h4 h5 =>
      rw [h2] at h4
      cases h4
      exact absurd h5 (Via.no h)
  | more h1 h2 h3 ih =>
    cases v' with
    | one h4 h5 =>
      rw [h2] at h5
      cases h5
      exact absurd h3 (Via.no h')
    | more h4 h5 h6 =>
      rw [h2] at h5
      cases h5
      exact ih h6 h

theorem Via.congr {w w' : World T} {n p r : Nat} (v : Via w n p r) (h : ∀ k, (w.layers k).kind = .input → w'.layers k = w.layers k) : Via w' n p r := by
  induction v with
  | one h1 h2 => exact .one (by rw [h _ h1]; exact h1) (by rw [h _ h1]; exact h2)
  | more h1 h2 _ ih => exact .more (by rw [h _ h1]; exact h1) (by rw [h _ h1]; exact h2) ih

theorem Source.unique {w : World T} {p r r' : Nat} (h : Source w p r) (h' : Source w p r') : r = r' := by
  obtain ⟨a, rfl | ⟨n, b⟩⟩ := h
  · obtain ⟨a', rfl | ⟨n', b'⟩⟩ := h'
    · rfl
    · exact absurd b' (Via.no a)
  · obtain ⟨a', rfl | ⟨n', b'⟩⟩ := h'
    · exact absurd b (Via.no a')
    · exact b.unique b' a a'

/-- what training needs to know about the feed-forward part of layer `l`, which follows layer `p` -/
structure FFMore (s : LSpec T) (l p : Nat) (inM : Mat) (ops : List (Op T)) (outM : Mat) (K : Ptr → T → Prop) (w w' : World T) : Prop where
  input : (w'.layers l).input = (w.layers l).input
  der : (w'.layers l).der = (w.layers l).der
  nb : (w'.layers l).nBias = (w.layers l).nBias
  difp : s = .softMax → ∀ r, Source w p r → (w'.layers l).dif = (w.layers r).dif
  difn : s ≠ .softMax → ∃ d dM, (w'.layers l).dif = some d ∧ DifAt l d dM ops outM K w w'
  neta : s.weighted = true → ∃ n nM, (w'.layers l).neta = some n ∧ Ready w' n nM ∧ nM.shape = outM.shape ∧
    (∀ q ∈ nM.ops, w.store.heap.next ≤ q ∧ ∀ d dM, (w'.layers l).dif = some d → Ready w' d dM → q ∉ dM.ops) ∧
    ∀ h h' x pv, w'.store.heap.next ≤ h.next → (∀ q c, K q c → h.val q = c) → Holds h inM x →
      List.Forall₂ (Holds h) (layerParams w' l) pv → exec ops h = .ok () h' → Holds h' nM (s.neta pv x)
  ref : s ≠ .flatten → (w'.layers l).ref = (w.layers l).ref ∧
    w'.store.heap.val (w.layers p).ref = w.store.heap.val (w.layers p).ref
  refF : s = .flatten → (w'.layers l).ref = (w.layers p).ref ∧
    w'.store.heap.val (w.layers p).ref = add (w.store.heap.val (w.layers p).ref) (w.store.heap.val (w.layers l).ref)
  mx : s = .norm ∨ s = .eNorm → w.store.heap.next ≤ (w'.layers l).maxScalar ∧ (w'.layers l).maxScalar < w'.store.heap.next ∧
    (∀ d dM, (w'.layers l).dif = some d → Ready w' d dM → (w'.layers l).maxScalar ∉ dM.ops) ∧
    ∀ h h' x, w'.store.heap.next ≤ h.next → (∀ q c, K q c → h.val q = c) → Holds h inM x → exec ops h = .ok () h' →
      h'.val (w'.layers l).maxScalar = max1 (x.flat.map fun v => if lt v zero then GoNum.neg v else v)

end Godeep
