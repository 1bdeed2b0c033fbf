import Verif.Props.Bytes
/-
  `Save` and `Load` of the layers of a model: each is a depth-first visit with marks.
-/
set_option linter.unusedSectionVars false

namespace Godeep
open Spec GoNum

variable {T : Type} [GoNum T]

/-! ### the visit -/

/-- `fl` with the layers in `o` marked too -/
def mark (fl : Nat → Bool) (o : List Nat) : Nat → Bool := fun k => fl k || o.contains k

/-- visit the layers of a list one after the other -/
def visits (rec : Nat → (Nat → Bool) → List Nat) : List Nat → (Nat → Bool) → List Nat
  | [], _ => []
  | p :: ps, fl => rec p fl ++ visits rec ps (mark fl (rec p fl))

/-- the layers in the order in which they are written, when those with `fl` are skipped -/
def visit (par : Nat → List Nat) : Nat → Nat → (Nat → Bool) → List Nat
  | 0, _, _ => []
  | n + 1, l, fl => if fl l then [] else visits (visit par n) (par l) (mark fl [l]) ++ [l]

theorem mark_true {fl : Nat → Bool} {o : List Nat} {k : Nat} : mark fl o k = true ↔ fl k = true ∨ k ∈ o := by
  simp [mark]

theorem mark_mark (fl : Nat → Bool) (a b : List Nat) : mark (mark fl a) b = mark fl (a ++ b) := by
  funext k
  rw [Bool.eq_iff_iff]
  simp only [mark_true, List.mem_append, or_assoc]

theorem mark_nil (fl : Nat → Bool) : mark fl [] = fl := by
  funext k; rw [Bool.eq_iff_iff, mark_true]; simp

/-- reachability along `par` -/
inductive Rch (par : Nat → List Nat) : Nat → Nat → Prop where
  | refl (l : Nat) : Rch par l l
  | step {l p k : Nat} : p ∈ par l → Rch par p k → Rch par l k

theorem Rch.trans {par : Nat → List Nat} {a b c : Nat} (h : Rch par a b) (h' : Rch par b c) : Rch par a c := by
  induction h with
  | refl _ => exact h'
  | step h1 _ ih => exact .step h1 (ih h')

theorem Rch.rank {par : Nat → List Nat} {rank : Nat → Nat} {l k : Nat} (h : Rch par l k)
    (hr : ∀ j, Rch par l j → ∀ p ∈ par j, rank p < rank j) : k = l ∨ rank k < rank l := by
  induction h with
  | refl _ => exact Or.inl rfl
  | step h1 h2 ih =>
    right
    have := hr _ (.refl _) _ h1
    rcases ih (fun j hj => hr j (.step h1 hj)) with rfl | h
    · exact this
    · omega

/-- marked layers are complete: the layers they read are marked as well -/
def Full (par : Nat → List Nat) (l : Nat) (fl : Nat → Bool) : Prop :=
  ∀ k, Rch par l k → fl k = true → ∀ p ∈ par k, fl p = true

theorem Full.rch {par : Nat → List Nat} {l : Nat} {fl : Nat → Bool} (F : Full par l fl) {k j : Nat} (hk : Rch par l k)
    (h : fl k = true) (hj : Rch par k j) : fl j = true := by
  induction hj with
  | refl _ => exact h
  | step h1 _ ih => exact ih (hk.trans (.step h1 (.refl _))) (F _ hk h _ h1)

theorem visit_spec {par : Nat → List Nat} {rank : Nat → Nat} : ∀ (n l : Nat) (fl : Nat → Bool), rank l < n →
    (∀ j, Rch par l j → ∀ p ∈ par j, rank p < rank j) → Full par l fl →
    (visit par n l fl).Nodup ∧ ∀ k, k ∈ visit par n l fl ↔ Rch par l k ∧ fl k = false := by
  intro n
  induction n with
  | zero => intro l fl h; omega
  | succ n ih =>
    intro l fl hl hr F
    rw [visit]
    by_cases hfl : fl l = true
    · rw [if_pos hfl]
      refine ⟨List.nodup_nil, fun k => ⟨fun h => by simp at h, fun ⟨h1, h2⟩ => ?_⟩⟩
      rw [F.rch (.refl l) hfl h1] at h2; cases h2
    rw [if_neg hfl]
    have hfl' : fl l = false := by simpa using hfl
    -- visiting a list of layers read by `l`
    have key : ∀ (ps : List Nat) (fl' : Nat → Bool), (∀ p ∈ ps, p ∈ par l) → (∀ p ∈ ps, Full par p fl') → fl' l = true →
        (visits (visit par n) ps fl').Nodup ∧
        ∀ k, k ∈ visits (visit par n) ps fl' ↔ (∃ p ∈ ps, Rch par p k) ∧ fl' k = false := by
      intro ps
      induction ps with
      | nil => intro fl' _ _ _; simp [visits]
      | cons p ps ihp =>
        intro fl' hp hF hlm
        have hpl := hr l (.refl l) p (hp p (by simp))
        obtain ⟨n1, m1⟩ := ih p fl' (by omega) (fun j hj => hr j (.step (hp p (by simp)) hj)) (hF p (by simp))
        have hF2 : ∀ q ∈ ps, Full par q (mark fl' (visit par n p fl')) := by
          intro q hq k hk hmk j hj
          rcases mark_true.1 hmk with h | h
          · exact mark_true.2 (Or.inl (hF q (by simp [hq]) k hk h j hj))
          · by_cases hjf : fl' j = true
            · exact mark_true.2 (Or.inl hjf)
            · exact mark_true.2 (Or.inr ((m1 j).2 ⟨((m1 k).1 h).1.trans (.step hj (.refl _)), by simpa using hjf⟩))
        obtain ⟨n2, m2⟩ := ihp (mark fl' (visit par n p fl')) (fun q hq => hp q (by simp [hq])) hF2
          (mark_true.2 (Or.inl hlm))
        · rw [visits]
          refine ⟨?_, fun k => ?_⟩
          · rw [List.nodup_append]
            refine ⟨n1, n2, fun a ha b hb hab => ?_⟩
            subst hab
            have := ((m2 a).1 hb).2
            rw [mark_true.2 (Or.inr ha)] at this; cases this
          · rw [List.mem_append, m1, m2]
            simp only [List.mem_cons, exists_eq_or_imp]
            constructor
            · rintro (⟨h1, h2⟩ | ⟨h1, h2⟩)
              · exact ⟨Or.inl h1, h2⟩
              · refine ⟨Or.inr h1, ?_⟩
                by_contra hc
                rw [mark_true.2 (Or.inl (by simpa using hc))] at h2; cases h2
            · rintro ⟨h1, h2⟩
              by_cases hk : k ∈ visit par n p fl'
              · exact Or.inl ((m1 k).1 hk)
              · refine Or.inr ⟨?_, ?_⟩
                · rcases h1 with h1 | h1
                  · exact absurd ((m1 k).2 ⟨h1, h2⟩) hk
                  · exact h1
                · by_contra hc
                  rcases mark_true.1 (by simpa using hc) with h | h
                  · rw [h] at h2; cases h2
                  · exact hk h
    have hF1 : ∀ p ∈ par l, Full par p (mark fl [l]) := by
      intro p hp k hk hmk j hj
      rcases mark_true.1 hmk with h | h
      · exact mark_true.2 (Or.inl (F k (.step hp hk) h j hj))
      · have hkl : k = l := by simpa using h
        subst hkl
        have h1 := hr k (.refl k) p hp
        rcases hk.rank (fun j hj => hr j (.step hp hj)) with h | h
        · subst h; omega
        · omega
    obtain ⟨n1, m1⟩ := key (par l) (mark fl [l]) (fun _ h => h) hF1 (by rw [mark_true]; simp)
    · refine ⟨?_, fun k => ?_⟩
      · rw [List.nodup_append]
        refine ⟨n1, by simp, fun a ha b hb hab => ?_⟩
        rw [List.mem_singleton] at hb
        subst hab; subst hb
        have := ((m1 _).1 ha).2
        rw [mark_true.2 (by simp)] at this; cases this
      · rw [List.mem_append, m1, List.mem_singleton]
        constructor
        · rintro (⟨⟨p, hp, h1⟩, h2⟩ | rfl)
          · refine ⟨.step hp h1, ?_⟩
            by_contra hc
            rw [mark_true.2 (Or.inl (by simpa using hc))] at h2; cases h2
          · exact ⟨.refl _, hfl'⟩
        · rintro ⟨h1, h2⟩
          by_cases hkl : k = l
          · exact Or.inr hkl
          · left
            cases h1 with
            | refl _ => exact absurd rfl hkl
            | step hp h1 =>
              refine ⟨⟨_, hp, h1⟩, ?_⟩
              by_contra hc
              rcases mark_true.1 (by simpa using hc) with h | h
              · rw [h] at h2; cases h2
              · exact hkl (by simpa using h)

/-- the visit depends only on how the layers are connected -/
theorem visit_map {par par' : Nat → List Nat} {f : Nat → Nat} : ∀ (n l : Nat) (fl fl' : Nat → Bool),
    (∀ k, Rch par l k → par' (f k) = (par k).map f) → (∀ j k, Rch par l j → Rch par l k → f j = f k → j = k) →
    (∀ k, Rch par l k → fl' (f k) = fl k) → visit par' n (f l) fl' = (visit par n l fl).map f ∧
      ∀ k ∈ visit par n l fl, Rch par l k := by
  intro n
  induction n with
  | zero => intro l fl fl' _ _ _; exact ⟨rfl, by simp [visit]⟩
  | succ n ih =>
    intro l fl fl' hp hi hf
    simp only [visit]
    rw [hf l (.refl l), hp l (.refl l)]
    by_cases hfl : fl l = true
    · simp [hfl]
    rw [if_neg hfl, if_neg hfl]
    have key : ∀ (ps : List Nat) (g g' : Nat → Bool), (∀ p ∈ ps, p ∈ par l) → (∀ k, Rch par l k → g' (f k) = g k) →
        visits (visit par' n) (ps.map f) g' = (visits (visit par n) ps g).map f ∧
        ∀ k ∈ visits (visit par n) ps g, Rch par l k := by
      intro ps
      induction ps with
      | nil => intro g g' _ _; exact ⟨rfl, by simp [visits]⟩
      | cons p ps ihp =>
        intro g g' hps hg
        have hpl := hps p (by simp)
        obtain ⟨e, m⟩ := ih p g g' (fun k hk => hp k (.step hpl hk)) (fun j k hj hk => hi j k (.step hpl hj) (.step hpl hk))
          (fun k hk => hg k (.step hpl hk))
        simp only [List.map_cons, visits]
        rw [e]
        have hg2 : ∀ k, Rch par l k → mark g' ((visit par n p g).map f) (f k) = mark g (visit par n p g) k := by
          intro k hk
          rw [Bool.eq_iff_iff, mark_true, mark_true, hg k hk, List.mem_map]
          constructor
          · rintro (h | ⟨j, hj, e⟩)
            · exact Or.inl h
            · exact Or.inr (hi j k (.step hpl (m j hj)) hk e ▸ hj)
          · rintro (h | h)
            · exact Or.inl h
            · exact Or.inr ⟨k, h, rfl⟩
        obtain ⟨e2, m2⟩ := ihp (mark g (visit par n p g)) (mark g' ((visit par n p g).map f))
          (fun q hq => hps q (by simp [hq])) hg2
        · rw [e2, List.map_append]
          refine ⟨rfl, fun k hk => ?_⟩
          rcases List.mem_append.1 hk with h | h
          · exact .step hpl (m k h)
          · exact m2 k h
    have hg1 : ∀ k, Rch par l k → mark fl' [f l] (f k) = mark fl [l] k := by
      intro k hk
      rw [Bool.eq_iff_iff, mark_true, mark_true, hf k hk]
      simp only [List.mem_singleton]
      constructor
      · rintro (h | h)
        · exact Or.inl h
        · exact Or.inr (hi k l hk (.refl l) h)
      · rintro (h | rfl)
        · exact Or.inl h
        · exact Or.inr rfl
    obtain ⟨e, m⟩ := key (par l) (mark fl [l]) (mark fl' [f l]) (fun _ h => h) hg1
    · rw [e, List.map_append]
      refine ⟨rfl, fun k hk => ?_⟩
      rcases List.mem_append.1 hk with h | h
      · exact m k h
      · rw [List.mem_singleton] at h; subst h; exact .refl _

theorem feeds_iff {w : World T} {l k : Nat} : Feeds w l k ↔ Rch (parents w) l k := by
  constructor
  · intro h
    induction h with
    | refl _ => exact .refl _
    | step h _ ih => exact .step h ih
  · intro h
    induction h with
    | refl _ => exact .refl _
    | step h _ ih => exact .step h ih

/-! ### `Save` -/

/-- the tensors of weights and biases, as the code finds them -/
def ownNodes (x : Layer T) : List Nat :=
  match x.kind with
  | .concat _ _ _ => []
  | _ => x.weights.toList ++ x.bias.toList

theorem ownTensors_eq (w : World T) (l : Nat) :
    ownTensors w l = (ownNodes (w.layers l)).map fun n => (w.store.nodes n).mat := by
  unfold ownTensors ownNodes
  cases (w.layers l).kind <;> rfl

variable [Bin T]

/-- do `f` for each element of a list -/
def chain {σ : Type} (f : Nat → σ → Out σ Unit) : List Nat → σ → Out σ Unit
  | [], s => .ok () s
  | p :: ps, s => (f p s).bind fun _ s => chain f ps s

theorem chain_append {σ : Type} (f : Nat → σ → Out σ Unit) (a b : List Nat) (s : σ) :
    chain f (a ++ b) s = (chain f a s).bind fun _ s => chain f b s := by
  induction a generalizing s with
  | nil => rfl
  | cons p a ih =>
    simp only [List.cons_append, chain]
    cases f p s with
    | ok u s => simp only [Out.bind_ok]; exact ih s
    | err e s => rfl
    | panic => rfl

theorem chain_one {σ : Type} (f : Nat → σ → Out σ Unit) (p : Nat) (s : σ) : chain f [p] s = f p s := by
  simp only [chain]
  cases f p s <;> rfl

theorem chain_opt {σ : Type} (f : Nat → σ → Out σ Unit) (o : Option Nat) (s : σ) :
    chain f o.toList s = match o with | none => .ok () s | some p => f p s := by
  cases o with
  | none => rfl
  | some p => exact chain_one f p s

theorem bind_assoc' {σ α β γ : Type} (x : Out σ α) (f : α → σ → Out σ β) (g : β → σ → Out σ γ) :
    (x.bind f).bind g = x.bind fun a s => (f a s).bind g := by
  cases x <;> rfl

theorem save_eq (n l : Nat) (s : World T × Sink) : LayerM.save (n + 1) l s =
    if (s.1.layers l).saved then .ok () s
    else (chain (LayerM.save n) (parents s.1 l) (LayerM.modW l (fun x => { x with saved := true }) s)).bind fun _ s' =>
      chain (fun n => LayerM.saveTensor (some n)) (ownNodes (s.1.layers l)) s' := by
  have hopt : ∀ (o : Option Nat) (s : World T × Sink),
      LayerM.saveTensor o s = chain (fun n => LayerM.saveTensor (some n)) o.toList s := by
    intro o s
    rw [chain_opt]
    cases o <;> rfl
  simp only [LayerM.save]
  split
  · rfl
  · unfold parents ownNodes
    generalize (s.1.layers l).kind = k
    cases k with
    | concat l1 l2 d =>
      simp only [chain]
      rw [bind_assoc']
      congr 1; funext u s2
      cases LayerM.save n l2 s2 <;> rfl
    | _ =>
      simp only
      rw [chain_opt]
      congr 1
      · cases (s.1.layers l).pre <;> rfl
      · funext u s2
        rw [chain_append, ← hopt]
        congr 1; funext u s3
        rw [← hopt]

/-- the world with the `saved` marks of the layers in `o` set -/
def markSaved (o : List Nat) (w : World T) : World T :=
  { w with layers := fun k => if k ∈ o then { w.layers k with saved := true } else w.layers k }

theorem markSaved_nil (w : World T) : markSaved [] w = w := by simp [markSaved]

theorem markSaved_mark (a b : List Nat) (w : World T) : markSaved b (markSaved a w) = markSaved (a ++ b) w := by
  unfold markSaved
  congr 1
  funext k
  simp only [List.mem_append]
  by_cases h1 : k ∈ a <;> by_cases h2 : k ∈ b <;> simp [h1, h2]

theorem markSaved_kind (o : List Nat) (w : World T) (l : Nat) : ((markSaved o w).layers l).kind = (w.layers l).kind := by
  simp only [markSaved]; split <;> rfl

theorem markSaved_parents (o : List Nat) (w : World T) : parents (markSaved o w) = parents w := by
  funext l
  unfold parents
  have : ((markSaved o w).layers l).pre = (w.layers l).pre := by simp only [markSaved]; split <;> rfl
  rw [markSaved_kind, this]

theorem markSaved_ownNodes (o : List Nat) (w : World T) (l : Nat) :
    ownNodes ((markSaved o w).layers l) = ownNodes (w.layers l) := by
  simp only [markSaved]; split <;> rfl

theorem markSaved_saved (o : List Nat) (w : World T) :
    (fun k => ((markSaved o w).layers k).saved) = mark (fun k => (w.layers k).saved) o := by
  funext k
  rw [Bool.eq_iff_iff, mark_true]
  simp only [markSaved]
  split
  · next h => simp [h]
  · next h => simp [h]

/-- the bytes of some tensors -/
def bytesOf (w : World T) (ns : List Nat) : List Byte :=
  ns.flatMap fun n => (w.store.nodes n).mat.ops.flatMap fun p => Bin.encode (w.store.heap.val p)

theorem saveNodes_ok (hf : Bin.fixed T = true) {w : World T} : ∀ (ns : List Nat) (out : List Byte),
    (∀ n ∈ ns, ∀ p ∈ (w.store.nodes n).mat.ops, p ≠ 0) →
    chain (fun n => LayerM.saveTensor (some n)) ns (w, ⟨out, none⟩) = .ok () (w, ⟨out ++ bytesOf w ns, none⟩) := by
  intro ns
  induction ns with
  | nil => intro out _; simp [chain, bytesOf]
  | cons n ns ih =>
    intro out hv
    simp only [chain, LayerM.saveTensor, Mat.save]
    rw [Mat.saveOps_ok hf (hv n (by simp))]
    simp only [Out.bind_ok]
    rw [ih _ (fun n hn => hv n (by simp [hn]))]
    simp [bytesOf]

theorem save_visit (hf : Bin.fixed T = true) {rank : Nat → Nat} : ∀ (n l : Nat) (w : World T) (out : List Byte), rank l < n →
    (∀ j, Rch (parents w) l j → ∀ p ∈ parents w j, rank p < rank j) →
    (∀ j, Rch (parents w) l j → ∀ n ∈ ownNodes (w.layers j), ∀ p ∈ (w.store.nodes n).mat.ops, p ≠ 0) →
    LayerM.save n l (w, ⟨out, none⟩) = .ok ()
      (markSaved (visit (parents w) n l fun k => (w.layers k).saved) w,
        ⟨out ++ bytesOf w ((visit (parents w) n l fun k => (w.layers k).saved).flatMap fun k => ownNodes (w.layers k)), none⟩) := by
  intro n
  induction n with
  | zero => intro l w out h; omega
  | succ n ih =>
    intro l w out hl hr hv
    rw [save_eq, visit]
    by_cases hs : (w.layers l).saved = true
    · rw [if_pos hs, if_pos hs, markSaved_nil]; simp [bytesOf]
    rw [if_neg hs, if_neg hs]
    have e1 : LayerM.modW l (fun x => { x with saved := true }) (w, (⟨out, none⟩ : Sink)) = (markSaved [l] w, ⟨out, none⟩) := by
      unfold LayerM.modW markSaved
      simp only [List.mem_singleton]
    simp only [e1]
    have key : ∀ (ps : List Nat) (o : List Nat) (out : List Byte), (∀ p ∈ ps, p ∈ parents w l) →
        chain (LayerM.save n) ps (markSaved o w, ⟨out, none⟩) = .ok ()
          (markSaved (o ++ visits (visit (parents w) n) ps (mark (fun k => (w.layers k).saved) o)) w,
            ⟨out ++ bytesOf w ((visits (visit (parents w) n) ps (mark (fun k => (w.layers k).saved) o)).flatMap
              fun k => ownNodes (w.layers k)), none⟩) := by
      intro ps
      induction ps with
      | nil => intro o out _; simp [chain, visits, bytesOf]
      | cons p ps ihp =>
        intro o out hps
        have hp := hps p (by simp)
        have := hr l (.refl l) p hp
        have h1 := ih p (markSaved o w) out (by omega) (by
          rw [markSaved_parents]
          exact fun j hj => hr j (.step hp hj)) (by
          rw [markSaved_parents]
          intro j hj
          rw [markSaved_ownNodes]
          exact hv j (.step hp hj))
        simp only [chain]
        rw [h1]
        simp only [Out.bind_ok]
        rw [markSaved_parents, markSaved_saved, markSaved_mark]
        have h2 := ihp (o ++ visit (parents w) n p (mark (fun k => (w.layers k).saved) o))
          (out ++ bytesOf (markSaved o w) ((visit (parents w) n p (mark (fun k => (w.layers k).saved) o)).flatMap
            fun k => ownNodes ((markSaved o w).layers k))) (fun q hq => hps q (by simp [hq]))
        rw [h2]
        simp only [visits, mark_mark, markSaved_ownNodes]
        simp only [bytesOf, markSaved, List.flatMap_append, List.append_assoc]
    rw [key (parents w l) [l] out (fun _ h => h)]
    simp only [Out.bind_ok]
    rw [saveNodes_ok hf _ _ (by
      intro m hm
      exact hv l (.refl l) m hm)]
    have e2 : ∀ o : List Nat, markSaved ([l] ++ o) w = markSaved (o ++ [l]) w := by
      intro o
      unfold markSaved
      congr 1; funext k
      simp only [List.mem_append, or_comm]
    rw [e2]
    simp only [bytesOf, markSaved, List.flatMap_append, List.append_assoc, List.flatMap_cons, List.flatMap_nil, List.append_nil]

/-! ### `Load` -/

theorem load_eq (n l : Nat) (s : World T × List Byte) : LayerM.load (n + 1) l s =
    if (s.1.layers l).loaded then .ok () s
    else (chain (LayerM.load n) (parents s.1 l) (LayerM.modW l (fun x => { x with loaded := true }) s)).bind fun _ s' =>
      chain (fun n => LayerM.loadTensor (some n)) (ownNodes (s.1.layers l)) s' := by
  have hopt : ∀ (o : Option Nat) (s : World T × List Byte),
      LayerM.loadTensor o s = chain (fun n => LayerM.loadTensor (some n)) o.toList s := by
    intro o s
    rw [chain_opt]
    cases o <;> rfl
  simp only [LayerM.load]
  split
  · rfl
  · unfold parents ownNodes
    generalize (s.1.layers l).kind = k
    cases k with
    | concat l1 l2 d =>
      simp only [chain]
      rw [bind_assoc']
      congr 1; funext u s2
      cases LayerM.load n l2 s2 <;> rfl
    | _ =>
      simp only
      rw [chain_opt]
      congr 1
      · cases (s.1.layers l).pre <;> rfl
      · funext u s2
        rw [chain_append, ← hopt]
        congr 1; funext u s3
        rw [← hopt]

/-- the world with the `loaded` marks of the layers in `o` set and the given scalars changed -/
def loadedW (o : List Nat) (vs : List (Ptr × T)) (w : World T) : World T :=
  { w with
    layers := fun k => if k ∈ o then { w.layers k with loaded := true } else w.layers k
    store := { w.store with heap := vs.foldl (fun h pv => h.put pv.1 pv.2) w.store.heap } }

theorem loadedW_nil (w : World T) : loadedW [] [] w = w := by simp [loadedW]

theorem loadedW_loadedW (a b : List Nat) (u v : List (Ptr × T)) (w : World T) :
    loadedW b v (loadedW a u w) = loadedW (a ++ b) (u ++ v) w := by
  unfold loadedW
  simp only [List.foldl_append]
  congr 1
  funext k
  simp only [List.mem_append]
  by_cases h1 : k ∈ a <;> by_cases h2 : k ∈ b <;> simp [h1, h2]

theorem loadedW_parents (o : List Nat) (vs : List (Ptr × T)) (w : World T) : parents (loadedW o vs w) = parents w := by
  funext l
  unfold parents
  have h1 : ((loadedW o vs w).layers l).pre = (w.layers l).pre := by simp only [loadedW]; split <;> rfl
  have h2 : ((loadedW o vs w).layers l).kind = (w.layers l).kind := by simp only [loadedW]; split <;> rfl
  rw [h1, h2]

theorem loadedW_ownNodes (o : List Nat) (vs : List (Ptr × T)) (w : World T) (l : Nat) :
    ownNodes ((loadedW o vs w).layers l) = ownNodes (w.layers l) := by
  simp only [loadedW]; split <;> rfl

theorem loadedW_loaded (o : List Nat) (vs : List (Ptr × T)) (w : World T) :
    (fun k => ((loadedW o vs w).layers k).loaded) = mark (fun k => (w.layers k).loaded) o := by
  funext k
  rw [Bool.eq_iff_iff, mark_true]
  simp only [loadedW]
  split
  · next h => simp [h]
  · next h => simp [h]

/-- the scalars of some tensors -/
def cellsOf (w : World T) (ns : List Nat) : List Ptr := ns.flatMap fun n => (w.store.nodes n).mat.ops

theorem cellsOf_append (w : World T) (a b : List Nat) : cellsOf w (a ++ b) = cellsOf w a ++ cellsOf w b := by
  simp [cellsOf]

theorem bytesOf_eq (w : World T) (ns : List Nat) : bytesOf w ns = ((cellsOf w ns).map w.store.heap.val).flatMap Bin.encode := by
  unfold bytesOf cellsOf
  rw [List.map_flatMap, List.flatMap_assoc]
  simp only [List.flatMap_map]

theorem zip_append' {a b : List Ptr} {vs : List T} (h : vs.length = (a ++ b).length) :
    (a.zip (vs.take a.length)) ++ (b.zip (vs.drop a.length)) = (a ++ b).zip vs ∧
    (vs.take a.length).length = a.length ∧ (vs.drop a.length).length = b.length := by
  have h' : vs.length = a.length + b.length := by simpa using h
  have h1 : (vs.take a.length).length = a.length := by rw [List.length_take]; omega
  refine ⟨?_, h1, by rw [List.length_drop]; omega⟩
  rw [← List.zip_append h1.symm, List.take_append_drop]

theorem loadNodes_ok (hf : Bin.fixed T = true) : ∀ (ns : List Nat) (w : World T) (vs : List T) (r : List Byte),
    (∀ n ∈ ns, ∀ p ∈ (w.store.nodes n).mat.ops, p ≠ 0) → vs.length = (cellsOf w ns).length →
    chain (fun n => LayerM.loadTensor (some n)) ns (w, vs.flatMap Bin.encode ++ r) =
      .ok () (loadedW [] ((cellsOf w ns).zip vs) w, r) := by
  intro ns
  induction ns with
  | nil =>
    intro w vs r _ h
    have : vs = [] := List.length_eq_zero_iff.1 (by simpa [cellsOf] using h)
    subst this
    simp [chain, cellsOf, loadedW_nil]
  | cons n ns ih =>
    intro w vs r hv hl
    have hc : cellsOf w (n :: ns) = (w.store.nodes n).mat.ops ++ cellsOf w ns := by simp [cellsOf]
    rw [hc] at hl ⊢
    obtain ⟨z1, z2, z3⟩ := zip_append' hl
    rw [← z1]
    simp only [chain, LayerM.loadTensor, Mat.load]
    have e : vs.flatMap Bin.encode ++ r = (vs.take (w.store.nodes n).mat.ops.length).flatMap Bin.encode ++
        ((vs.drop (w.store.nodes n).mat.ops.length).flatMap Bin.encode ++ r) := by
      rw [← List.append_assoc, ← List.flatMap_append, List.take_append_drop]
    rw [e, Mat.loadOps_encoded hf (hv n (by simp)) z2]
    simp only [Out.bind_ok]
    have := ih (loadedW [] ((w.store.nodes n).mat.ops.zip (vs.take (w.store.nodes n).mat.ops.length)) w)
      (vs.drop (w.store.nodes n).mat.ops.length) r (fun k hk => hv k (by simp [hk])) z3
    rw [loadedW_loadedW, List.nil_append] at this
    rw [← show cellsOf (loadedW [] ((w.store.nodes n).mat.ops.zip (vs.take (w.store.nodes n).mat.ops.length)) w) ns =
      cellsOf w ns from rfl, ← this]
    congr 2

theorem load_visit (hf : Bin.fixed T = true) {rank : Nat → Nat} : ∀ (n l : Nat) (w : World T) (vs : List T) (r : List Byte),
    rank l < n → (∀ j, Rch (parents w) l j → ∀ p ∈ parents w j, rank p < rank j) →
    (∀ j, Rch (parents w) l j → ∀ n ∈ ownNodes (w.layers j), ∀ p ∈ (w.store.nodes n).mat.ops, p ≠ 0) →
    vs.length = (cellsOf w ((visit (parents w) n l fun k => (w.layers k).loaded).flatMap fun k => ownNodes (w.layers k))).length →
    LayerM.load n l (w, vs.flatMap Bin.encode ++ r) = .ok ()
      (loadedW (visit (parents w) n l fun k => (w.layers k).loaded)
        ((cellsOf w ((visit (parents w) n l fun k => (w.layers k).loaded).flatMap fun k => ownNodes (w.layers k))).zip vs) w, r) := by
  intro n
  induction n with
  | zero => intro l w vs r h; omega
  | succ n ih =>
    intro l w vs r hl hr hv hlen
    rw [load_eq]
    simp only [visit] at hlen ⊢
    by_cases hs : (w.layers l).loaded = true
    · rw [if_pos hs] at hlen
      rw [if_pos hs, if_pos hs]
      have : vs = [] := List.length_eq_zero_iff.1 (by simpa [cellsOf] using hlen)
      subst this
      simp [cellsOf, loadedW_nil]
    rw [if_neg hs] at hlen
    rw [if_neg hs, if_neg hs]
    have e1 : ∀ r : List Byte, LayerM.modW l (fun x => { x with loaded := true }) (w, r) = (loadedW [l] [] w, r) := by
      intro r
      unfold LayerM.modW loadedW
      simp only [List.mem_singleton, List.foldl_nil]
    simp only [e1]
    have key : ∀ (ps : List Nat) (o : List Nat) (u : List (Ptr × T)) (vs : List T) (r : List Byte), (∀ p ∈ ps, p ∈ parents w l) →
        vs.length = (cellsOf w ((visits (visit (parents w) n) ps (mark (fun k => (w.layers k).loaded) o)).flatMap
              fun k => ownNodes (w.layers k))).length →
        chain (LayerM.load n) ps (loadedW o u w, vs.flatMap Bin.encode ++ r) = .ok ()
          (loadedW (o ++ visits (visit (parents w) n) ps (mark (fun k => (w.layers k).loaded) o))
            (u ++ (cellsOf w ((visits (visit (parents w) n) ps (mark (fun k => (w.layers k).loaded) o)).flatMap
              fun k => ownNodes (w.layers k))).zip vs) w, r) := by
      intro ps
      induction ps with
      | nil =>
        intro o u vs r _ hl
        have : vs = [] := List.length_eq_zero_iff.1 (by simpa [cellsOf, visits] using hl)
        subst this
        simp [chain, visits, cellsOf]
      | cons p ps ihp =>
        intro o u vs r hps hlv
        have hp := hps p (by simp)
        have := hr l (.refl l) p hp
        simp only [visits, List.flatMap_append, cellsOf_append] at hlv ⊢
        set c1 := cellsOf w ((visit (parents w) n p (mark (fun k => (w.layers k).loaded) o)).flatMap
              fun k => ownNodes (w.layers k)) with hc1
        obtain ⟨z1, z2, z3⟩ := zip_append' hlv
        rw [← z1]
        have e : vs.flatMap Bin.encode ++ r = (vs.take c1.length).flatMap Bin.encode ++
            ((vs.drop c1.length).flatMap Bin.encode ++ r) := by
          rw [← List.append_assoc, ← List.flatMap_append, List.take_append_drop]
        have hown : (fun k => ownNodes ((loadedW o u w).layers k)) = fun k => ownNodes (w.layers k) := by
          funext k; exact loadedW_ownNodes o u w k
        have h1 := ih p (loadedW o u w) (vs.take c1.length) ((vs.drop c1.length).flatMap Bin.encode ++ r) (by omega) (by
          rw [loadedW_parents]
          exact fun j hj => hr j (.step hp hj)) (by
          rw [loadedW_parents]
          intro j hj
          rw [loadedW_ownNodes]
          exact hv j (.step hp hj)) (by
          rw [loadedW_parents, loadedW_loaded, hown]
          exact z2)
        rw [loadedW_parents, loadedW_loaded, hown, loadedW_loadedW,
          show cellsOf (loadedW o u w) _ = c1 from rfl] at h1
        simp only [chain]
        rw [e, h1]
        simp only [Out.bind_ok]
        have h2 := ihp (o ++ visit (parents w) n p (mark (fun k => (w.layers k).loaded) o))
          (u ++ c1.zip (vs.take c1.length)) (vs.drop c1.length) r (fun q hq => hps q (by simp [hq])) (by
            rw [← mark_mark]; exact z3)
        rw [h2]
        simp only [← mark_mark, List.append_assoc]
    simp only [List.flatMap_append, cellsOf_append, List.flatMap_cons, List.flatMap_nil, List.append_nil] at hlen ⊢
    set c1 := cellsOf w ((visits (visit (parents w) n) (parents w l) (mark (fun k => (w.layers k).loaded) [l])).flatMap
              fun k => ownNodes (w.layers k)) with hc1
    obtain ⟨z1, z2, z3⟩ := zip_append' hlen
    rw [← z1]
    have e : vs.flatMap Bin.encode ++ r = (vs.take c1.length).flatMap Bin.encode ++
        ((vs.drop c1.length).flatMap Bin.encode ++ r) := by
      rw [← List.append_assoc, ← List.flatMap_append, List.take_append_drop]
    rw [e, key (parents w l) [l] [] (vs.take c1.length) ((vs.drop c1.length).flatMap Bin.encode ++ r) (fun _ h => h) z2]
    simp only [Out.bind_ok, ← hc1, List.nil_append]
    have h3 := loadNodes_ok hf (ownNodes (w.layers l)) (loadedW ([l] ++ visits (visit (parents w) n) (parents w l)
      (mark (fun k => (w.layers k).loaded) [l])) (c1.zip (vs.take c1.length)) w) (vs.drop c1.length) r
      (fun m hm => hv l (.refl l) m hm) z3
    rw [h3, loadedW_loadedW]
    have e2 : ∀ (o : List Nat) (u : List (Ptr × T)), loadedW ([l] ++ o ++ []) u w = loadedW (o ++ [l]) u w := by
      intro o u
      unfold loadedW
      congr 1; funext k
      by_cases h1 : k = l <;> by_cases h2 : k ∈ o <;> simp [h1, h2]
    rw [e2]
    rfl

end Godeep
