import Verif.Spec.Calls
import Verif.Lemmas.BranchFF
import Verif.Props.Graph
/-
  Programs of tensor functions: each call makes one pending tensor.
-/
set_option linter.unusedSectionVars false
set_option linter.unusedVariables false

namespace Godeep
open Spec GoNum

variable {T : Type} [GoNum T]

theorem transpose_tab {a b : STensor T} (h : a.tab = b.tab) : a.transpose.tab = b.transpose.tab := by
  obtain ⟨h1, h2⟩ := tab_iff.1 h
  refine tab_iff.2 ⟨by show a.shape.reverse = b.shape.reverse; rw [h1], fun idx hi => h2 _ ?_⟩
  rw [← inRange_reverse, List.reverse_reverse]; exact hi

theorem dimReduce_tab {a b : STensor T} {d : Nat} (r : List T → T) (h : a.tab = b.tab) : (a.dimReduce r d).tab = (b.dimReduce r d).tab := by
  obtain ⟨h1, h2⟩ := tab_iff.1 h
  refine tab_iff.2 ⟨by show a.shape.take _ = b.shape.take _; rw [h1], fun idx hi => ?_⟩
  show r _ = r _
  rw [← h1]
  congr 1
  refine List.map_congr_left fun suf hs => h2 _ ?_
  have := inRange_append (s1 := a.shape.take (d + 1)) hi (mem_allIdx.1 hs)
  rwa [List.take_append_drop] at this

theorem dot_tab {a b a' b' : STensor T} {da db : Nat} (h : a.tab = a'.tab) (h' : b.tab = b'.tab) (ha : da < a.shape.length)
    (hb : db < b.shape.length) (he : a.shape.getD da 0 = b.shape.getD db 0) : (a.dot sum1 b da db).tab = (a'.dot sum1 b' da db).tab := by
  obtain ⟨h1, h2⟩ := tab_iff.1 h
  obtain ⟨k1, k2⟩ := tab_iff.1 h'
  refine tab_iff.2 ⟨by show a.shape.eraseIdx _ ++ _ = a'.shape.eraseIdx _ ++ _; rw [h1, k1], fun idx hi => ?_⟩
  show sum1 _ = sum1 _
  have hl : (a.shape.eraseIdx da).length = a.shape.length - 1 := by rw [List.length_eraseIdx, if_pos ha]
  have hi' : InRange (a.shape.eraseIdx da ++ b.shape.eraseIdx db) idx := hi
  have i1 := inRange_take hi' (a.shape.length - 1)
  have i2 := inRange_drop hi' (a.shape.length - 1)
  rw [← hl, List.take_left] at i1
  rw [← hl, List.drop_left] at i2
  rw [← h1]
  congr 1
  refine List.map_congr_left fun k hk => ?_
  have hk' := List.mem_range.1 hk
  rw [hl] at i1 i2
  rw [h2 _ (inRange_insertIdx ha i1 hk'), k2 _ (inRange_insertIdx hb i2 (he ▸ hk'))]

theorem dotVec_tab {a b a' b' : STensor T} (h : a.tab = a'.tab) (h' : b.tab = b'.tab) (ha : a.shape.length = 1)
    (hb : b.shape.length = 1) (he : a.shape.getD 0 0 = b.shape.getD 0 0) : (a.dotVec sum1 b).tab = (a'.dotVec sum1 b').tab := by
  obtain ⟨h1, h2⟩ := tab_iff.1 h
  obtain ⟨k1, k2⟩ := tab_iff.1 h'
  obtain ⟨x, hx⟩ := List.length_eq_one_iff.1 ha
  obtain ⟨y, hy⟩ := List.length_eq_one_iff.1 hb
  have hxy : x = y := by rw [hx, hy] at he; simpa using he
  refine tab_iff.2 ⟨rfl, fun idx hi => ?_⟩
  show sum1 _ = sum1 _
  rw [← h1]
  congr 1
  refine List.map_congr_left fun k hk => ?_
  rw [hx] at hk
  have hk' : k < x := by simpa using hk
  rw [h2 _ (by rw [hx]; simpa using hk'), k2 _ (by rw [hy, ← hxy]; simpa using hk')]

theorem dotValue_tab {a b a' b' : STensor T} {da db : Nat} {s : List Nat} (h : a.tab = a'.tab) (h' : b.tab = b'.tab)
    (hd : Call.dotShape a.shape b.shape da db = some s) : (Call.dotValue a b da db).tab = (Call.dotValue a' b' da db).tab := by
  obtain ⟨h1, h2⟩ := tab_iff.1 h
  obtain ⟨k1, k2⟩ := tab_iff.1 h'
  unfold Call.dotShape Call.only at hd
  split at hd
  · rename_i hc
    obtain ⟨c1, c2, c3, c4⟩ := hc
    unfold Call.dotValue
    rw [← h1, ← k1]
    split
    · rename_i hr
      refine dotVec_tab h h' hr.1 hr.2 ?_
      have e1 : da = 0 := by omega
      have e2 : db = 0 := by omega
      rw [e1, e2] at c3; exact c3
    · exact dot_tab h h' c1 c2 c3
  · cases hd

theorem divOK_of (hd : ∀ x y : T, divPanics x y = false) (k : Kind T) : k.divOK := by
  cases k <;> try exact trivial
  case op2 o _ _ => cases o <;> first | exact trivial | exact hd
  case opScalar o _ _ => cases o <;> first | exact trivial | exact hd
  case softMax => exact hd
  case math r _ => cases r <;> first | exact trivial | exact hd
  case dimMath r _ _ => cases r <;> first | exact trivial | exact hd

/-- what one call makes -/
structure Makes (c : Call T) (sh : Nat → Option (List Nat)) (s : List Nat) (k : Kind T) (own : List Nat) : Prop where
  run : c.run = Run.newNode (Store.lazyNode k own)
  kids : ∀ n ∈ k.kids, (sh n).isSome
  expr : k.isExpr
  nonleaf : k ≠ .leaf
  scal : ∀ h : Heap T, c.scalarOK h → ScalarOK h k
  fits : k.fits fun n => (sh n).getD []
  no : ¬ k.straddles fun n => (sh n).getD []
  red : k.redOK fun n => (sh n).getD []
  shape : k.outShape own (fun n => (sh n).getD []) = s
  den : ∀ (scal : Ptr → T) (x x' : Nat → STensor T), (∀ n ∈ k.kids, (x n).shape = (sh n).getD [] ∧ (x n).tab = (x' n).tab) →
    ∃ t, k.den scal own (fun n => (x n).tab) = some t ∧ t.tab = (c.value scal x').tab

theorem only_some {p : Prop} [Decidable p] {s s' : List Nat} (h : Call.only p s = some s') : p ∧ s = s' := by
  unfold Call.only at h
  split at h
  · exact ⟨by assumption, Option.some.inj h⟩
  · cases h

theorem makes_op2 (o : Arith) {c : Call T} {a b : Nat} {sh : Nat → Option (List Nat)} {s : List Nat} (hr : c.run = Tensor.newOp2 a b o)
    (hs : c.shape sh = (sh a).bind fun s => (sh b).bind fun s' => Call.only (s = s') s)
    (hv : ∀ scal x, c.value scal x = (x a).zip o.fn (x b)) (h : c.shape sh = some s) : Makes c sh s (.op2 o a b) [] := by
  rw [hs] at h
  obtain ⟨sa, ha, h⟩ := Option.bind_eq_some_iff.1 h
  obtain ⟨sb, hb, h⟩ := Option.bind_eq_some_iff.1 h
  obtain ⟨e1, e2⟩ := only_some h
  subst e1 e2
  refine ⟨hr, ?_, trivial, by simp, fun _ _ => trivial, ?_, id, trivial, ?_, fun scal x x' hx => ?_⟩
  · intro n hn
    simp only [Kind.kids, List.mem_cons, List.not_mem_nil, or_false] at hn
    rcases hn with rfl | rfl
    · rw [ha]; rfl
    · rw [hb]; rfl
  · show (sh a).getD [] = (sh b).getD []; rw [ha, hb]
  · show (sh a).getD [] = _; rw [ha]; rfl
  · obtain ⟨a1, a2⟩ := hx a (by simp [Kind.kids])
    obtain ⟨b1, b2⟩ := hx b (by simp [Kind.kids])
    rw [ha] at a1; rw [hb] at b1
    have he : (x a).shape = (x b).shape := by rw [a1, b1]
    refine ⟨(x a).tab.zip o.fn (x b).tab, if_pos he, ?_⟩
    rw [hv]
    exact zip_tab o.fn (by rw [tab_tab, a2]) (by rw [tab_tab, b2]) he

theorem makes_unary {c : Call T} {k : Kind T} {t : Nat} {f : (Ptr → T) → T → T} {sh : Nat → Option (List Nat)} {s : List Nat}
    (hr : c.run = Run.newNode (Store.lazyNode k [])) (hk : k.kids = [t]) (hx : k.isExpr) (hl : k ≠ .leaf)
    (hsc : ∀ h : Heap T, c.scalarOK h → ScalarOK h k) (hf : ∀ sh, k.fits sh) (hn : ∀ sh, ¬ k.straddles sh) (hred : ∀ sh, k.redOK sh)
    (ho : ∀ sh, k.outShape [] sh = sh t) (hd : ∀ scal x, k.den scal [] x = some ((x t).map (f scal)))
    (hs : c.shape sh = sh t) (hv : ∀ scal x, c.value scal x = (x t).map (f scal)) (h : c.shape sh = some s) : Makes c sh s k [] := by
  rw [hs] at h
  refine ⟨hr, ?_, hx, hl, hsc, hf _, hn _, hred _, ?_, fun scal x x' hx => ?_⟩
  · intro n hn
    rw [hk] at hn; obtain rfl := List.mem_singleton.1 hn
    rw [h]; rfl
  · rw [ho, h]; rfl
  · obtain ⟨a1, a2⟩ := hx t (by simp [hk])
    exact ⟨_, hd _ _, by rw [hv]; exact map_tab _ (by rw [tab_tab, a2])⟩

theorem makes_math (r : Red) {c : Call T} {t : Nat} {sh : Nat → Option (List Nat)} {s : List Nat} (hr : c.run = Tensor.tensorMath t r)
    (hs : c.shape sh = (sh t).bind fun s => Call.only (size s ≠ 0) [1])
    (hv : ∀ scal x, c.value scal x = (x t).reduce r.fn) (h : c.shape sh = some s) : Makes c sh s (.math r t) [] := by
  rw [hs] at h
  obtain ⟨sa, ha, h⟩ := Option.bind_eq_some_iff.1 h
  obtain ⟨e1, e2⟩ := only_some h
  subst e2
  refine ⟨hr, ?_, trivial, by simp, fun _ _ => trivial, trivial, id, ?_, rfl, fun scal x x' hx => ?_⟩
  · intro n hn
    obtain rfl := List.mem_singleton.1 hn
    rw [ha]; rfl
  · show size ((sh t).getD []) ≠ 0; rw [ha]; exact e1
  · obtain ⟨a1, a2⟩ := hx t (by simp [Kind.kids])
    exact ⟨_, rfl, by rw [hv]; exact reduce_tab _ (by rw [tab_tab, a2])⟩

theorem makes_dimMath (r : Red) {c : Call T} {t d : Nat} {sh : Nat → Option (List Nat)} {s : List Nat} (hr : c.run = Tensor.dimMath t d r)
    (hs : c.shape sh = (sh t).bind fun s => Call.only (d < s.length ∧ size (s.drop (d + 1)) ≠ 0) (s.take (d + 1)))
    (hv : ∀ scal x, c.value scal x = (x t).dimReduce r.fn d) (h : c.shape sh = some s) : Makes c sh s (.dimMath r d t) [] := by
  rw [hs] at h
  obtain ⟨sa, ha, h⟩ := Option.bind_eq_some_iff.1 h
  obtain ⟨⟨e1, e3⟩, e2⟩ := only_some h
  subst e2
  refine ⟨hr, ?_, trivial, by simp, fun _ _ => trivial, ?_, id, ?_, ?_, fun scal x x' hx => ?_⟩
  · intro n hn
    obtain rfl := List.mem_singleton.1 hn
    rw [ha]; rfl
  · show d < ((sh t).getD []).length; rw [ha]; exact e1
  · show size (((sh t).getD []).drop _) ≠ 0 ∨ _; rw [ha]; exact Or.inl e3
  · show ((sh t).getD []).take _ = _; rw [ha]; rfl
  · obtain ⟨a1, a2⟩ := hx t (by simp [Kind.kids])
    rw [ha] at a1
    refine ⟨(x t).tab.dimReduce r.fn d, if_pos (show d < (x t).shape.length by rw [a1]; exact e1), ?_⟩
    rw [hv]; exact dimReduce_tab _ (by rw [tab_tab, a2])

theorem makes_dot (dims : Option (Nat × Nat)) {c : Call T} {a b : Nat} {sh : Nat → Option (List Nat)} {s : List Nat}
    (hr : c.run = Run.newNode (Store.lazyNode (.dot dims a b) []))
    (hs : c.shape sh = (sh a).bind fun s => (sh b).bind fun s' => Call.dotShape s s' (dotDims dims s s').1 (dotDims dims s s').2)
    (hv : ∀ scal x, c.value scal x = Call.dotValue (x a) (x b) (dotDims dims (x a).shape (x b).shape).1 (dotDims dims (x a).shape (x b).shape).2)
    (h : c.shape sh = some s) : Makes c sh s (.dot dims a b) [] := by
  rw [hs] at h
  obtain ⟨sa, ha, h⟩ := Option.bind_eq_some_iff.1 h
  obtain ⟨sb, hb, h⟩ := Option.bind_eq_some_iff.1 h
  have h0 := h
  obtain ⟨⟨c1, c2, c3, c4⟩, e⟩ := only_some h
  have ga : (sh a).getD [] = sa := by rw [ha]; rfl
  have gb : (sh b).getD [] = sb := by rw [hb]; rfl
  refine ⟨hr, ?_, trivial, by simp, fun _ _ => trivial, ?_, id, ?_, ?_, fun scal x x' hx => ?_⟩
  · intro n hn
    simp only [Kind.kids, List.mem_cons, List.not_mem_nil, or_false] at hn
    rcases hn with rfl | rfl
    · rw [ha]; rfl
    · rw [hb]; rfl
  · simp only [Kind.fits, ga, gb]; exact ⟨c1, c2, c3⟩
  · simp only [Kind.redOK, ga, gb]; exact Or.inl c4
  · simp only [Kind.outShape, ga, gb]; exact e
  · obtain ⟨a1, a2⟩ := hx a (by simp [Kind.kids])
    obtain ⟨b1, b2⟩ := hx b (by simp [Kind.kids])
    rw [ga] at a1; rw [gb] at b1
    have hsa := (tab_iff.1 a2).1
    have hsb := (tab_iff.1 b2).1
    refine ⟨Call.dotValue (x a).tab (x b).tab (dotDims dims sa sb).1 (dotDims dims sa sb).2, ?_, ?_⟩
    · subst a1 b1
      exact if_pos ⟨c1, c2, c3⟩
    · rw [hv, ← hsa, ← hsb, a1, b1]
      exact dotValue_tab (s := s) (by rw [tab_tab, a2]) (by rw [tab_tab, b2]) (by rw [tab_shape, tab_shape, a1, b1]; exact h0)

/-- every call makes one lazily evaluated tensor that means what the call means -/
theorem call_makes (c : Call T) {sh : Nat → Option (List Nat)} {s : List Nat} (h : c.shape sh = some s) : ∃ k own, Makes c sh s k own := by
  cases c with
  | add a b => exact ⟨_, _, makes_op2 .add rfl rfl (fun _ _ => rfl) h⟩
  | sub a b => exact ⟨_, _, makes_op2 .sub rfl rfl (fun _ _ => rfl) h⟩
  | mul a b => exact ⟨_, _, makes_op2 .mul rfl rfl (fun _ _ => rfl) h⟩
  | div a b => exact ⟨_, _, makes_op2 .div rfl rfl (fun _ _ => rfl) h⟩
  | addScalar t p => exact ⟨_, _, makes_unary (k := .opScalar .add t p) (f := fun scal v => GoNum.add v (scal p)) rfl rfl trivial (by simp)
      (fun _ h => h) (fun _ => trivial) (fun _ => id) (fun _ => trivial) (fun _ => rfl) (fun _ _ => rfl) rfl (fun _ _ => rfl) h⟩
  | subScalar t p => exact ⟨_, _, makes_unary (k := .opScalar .sub t p) (f := fun scal v => GoNum.sub v (scal p)) rfl rfl trivial (by simp)
      (fun _ h => h) (fun _ => trivial) (fun _ => id) (fun _ => trivial) (fun _ => rfl) (fun _ _ => rfl) rfl (fun _ _ => rfl) h⟩
  | mulScalar t p => exact ⟨_, _, makes_unary (k := .opScalar .mul t p) (f := fun scal v => GoNum.mul v (scal p)) rfl rfl trivial (by simp)
      (fun _ h => h) (fun _ => trivial) (fun _ => id) (fun _ => trivial) (fun _ => rfl) (fun _ _ => rfl) rfl (fun _ _ => rfl) h⟩
  | divScalar t p => exact ⟨_, _, makes_unary (k := .opScalar .div t p) (f := fun scal v => GoNum.div v (scal p)) rfl rfl trivial (by simp)
      (fun _ h => h) (fun _ => trivial) (fun _ => id) (fun _ => trivial) (fun _ => rfl) (fun _ _ => rfl) rfl (fun _ _ => rfl) h⟩
  | neg t => exact ⟨_, _, makes_unary (k := .neg t) (f := fun _ => GoNum.neg) rfl rfl trivial (by simp)
      (fun _ h => h) (fun _ => trivial) (fun _ => id) (fun _ => trivial) (fun _ => rfl) (fun _ _ => rfl) rfl (fun _ _ => rfl) h⟩
  | abs t => exact ⟨_, _, makes_unary (k := .abs t) (f := fun _ v => if lt v zero then GoNum.neg v else v) rfl rfl trivial (by simp)
      (fun _ h => h) (fun _ => trivial) (fun _ => id) (fun _ => trivial) (fun _ => rfl) (fun _ _ => rfl) rfl (fun _ _ => rfl) h⟩
  | activate t f => exact ⟨_, _, makes_unary (k := .act f t) (f := fun _ => f) rfl rfl trivial (by simp)
      (fun _ h => h) (fun _ => trivial) (fun _ => id) (fun _ => trivial) (fun _ => rfl) (fun _ _ => rfl) rfl (fun _ _ => rfl) h⟩
  | softMax t =>
    obtain ⟨sa, ha, h'⟩ := Option.bind_eq_some_iff.1 (show (sh t).bind (fun s => Call.only (size s ≠ 0) s) = some s from h)
    obtain ⟨e1, rfl⟩ := only_some h'
    refine ⟨.softMax t, [], rfl, ?_, trivial, by simp, fun _ _ => trivial, trivial, id, ?_, ?_, fun scal x x' hx => ?_⟩
    · intro n hn
      obtain rfl := List.mem_singleton.1 hn
      rw [ha]; rfl
    · show size ((sh t).getD []) ≠ 0; rw [ha]; exact e1
    · show (sh t).getD [] = _; rw [ha]; rfl
    · obtain ⟨a1, a2⟩ := hx t (by simp [Kind.kids])
      exact ⟨_, rfl, shiftNorm1_tab (by rw [tab_tab, a2])⟩
  | sum t => exact ⟨_, _, makes_math .sum rfl rfl (fun _ _ => rfl) h⟩
  | avg t => exact ⟨_, _, makes_math .avg rfl rfl (fun _ _ => rfl) h⟩
  | max t => exact ⟨_, _, makes_math .max rfl rfl (fun _ _ => rfl) h⟩
  | min t => exact ⟨_, _, makes_math .min rfl rfl (fun _ _ => rfl) h⟩
  | dSum t d => exact ⟨_, _, makes_dimMath .sum rfl rfl (fun _ _ => rfl) h⟩
  | dAvg t d => exact ⟨_, _, makes_dimMath .avg rfl rfl (fun _ _ => rfl) h⟩
  | dMax t d => exact ⟨_, _, makes_dimMath .max rfl rfl (fun _ _ => rfl) h⟩
  | dMin t d => exact ⟨_, _, makes_dimMath .min rfl rfl (fun _ _ => rfl) h⟩
  | dot a b => exact ⟨_, _, makes_dot none rfl rfl (fun _ _ => rfl) h⟩
  | dotAt a b da db => exact ⟨_, _, makes_dot (some (da, db)) rfl rfl (fun _ _ => rfl) h⟩
  | concat a b d =>
    obtain ⟨sa, ha, h'⟩ := Option.bind_eq_some_iff.1 (show (sh a).bind (fun s => (sh b).bind fun s' =>
      Call.only (d < s.length ∧ s' = s.set d (s'.getD d 0)) (s.modify d (· + s'.getD d 0))) = some s from h)
    obtain ⟨sb, hb, h'⟩ := Option.bind_eq_some_iff.1 h'
    obtain ⟨⟨c1, c2⟩, rfl⟩ := only_some h'
    have ga : (sh a).getD [] = sa := by rw [ha]; rfl
    have gb : (sh b).getD [] = sb := by rw [hb]; rfl
    refine ⟨.concat d a b, [], rfl, ?_, trivial, by simp, fun _ _ => trivial, ?_, id, trivial, ?_, fun scal x x' hx => ?_⟩
    · intro n hn
      simp only [Kind.kids, List.mem_cons, List.not_mem_nil, or_false] at hn
      rcases hn with rfl | rfl
      · rw [ha]; rfl
      · rw [hb]; rfl
    · simp only [Kind.fits, ga, gb]; exact ⟨c1, c2⟩
    · simp only [Kind.outShape, ga, gb]
    · obtain ⟨a1, a2⟩ := hx a (by simp [Kind.kids])
      obtain ⟨b1, b2⟩ := hx b (by simp [Kind.kids])
      rw [ga] at a1; rw [gb] at b1
      refine ⟨(x a).tab.concat (x b).tab d, ?_, ?_⟩
      · subst a1 b1; exact if_pos ⟨c1, c2⟩
      · exact concat_tab (by rw [tab_tab, a2]) (by rw [tab_tab, b2]) (by rw [tab_shape, a1]; exact c1)
          (by rw [tab_shape, tab_shape, a1, b1]; exact c2)
  | subTensor t d lo hi =>
    obtain ⟨sa, ha, h'⟩ := Option.bind_eq_some_iff.1 (show (sh t).bind (fun s => Call.only (d < s.length ∧ lo < hi ∧ hi ≤ s.getD d 0) (s.set d (hi - lo))) = some s from h)
    obtain ⟨⟨c1, c2, c3⟩, rfl⟩ := only_some h'
    have ga : (sh t).getD [] = sa := by rw [ha]; rfl
    refine ⟨.sub d lo hi false t, [], rfl, ?_, trivial, by simp, fun _ _ => trivial, ?_, fun h => by simp [Kind.straddles] at h, trivial, ?_, fun scal x x' hx => ?_⟩
    · intro n hn
      obtain rfl := List.mem_singleton.1 hn
      rw [ha]; rfl
    · simp only [Kind.fits, ga]; exact ⟨c1, c2, Or.inr c3⟩
    · simp only [Kind.outShape, ga]
    · obtain ⟨a1, a2⟩ := hx t (by simp [Kind.kids])
      rw [ga] at a1
      refine ⟨(x t).tab.slab d lo hi, ?_, ?_⟩
      · subst a1; exact if_pos ⟨c1, c2, Or.inr c3⟩
      · exact slab_tab (by rw [tab_tab, a2]) (by rw [tab_shape, a1]; exact c1) (by rw [tab_shape, a1]; exact c3)
  | subExtended t d lo hi =>
    obtain ⟨sa, ha, h'⟩ := Option.bind_eq_some_iff.1 (show (sh t).bind (fun s => Call.only (d < s.length ∧ lo < hi ∧ (hi ≤ s.getD d 0 ∨ s.getD d 0 < lo)) (s.set d (hi - lo))) = some s from h)
    obtain ⟨⟨c1, c2, c3⟩, rfl⟩ := only_some h'
    have ga : (sh t).getD [] = sa := by rw [ha]; rfl
    refine ⟨.sub d lo hi true t, [], rfl, ?_, trivial, by simp, fun _ _ => trivial, ?_, ?_, trivial, ?_, fun scal x x' hx => ?_⟩
    · intro n hn
      obtain rfl := List.mem_singleton.1 hn
      rw [ha]; rfl
    · simp only [Kind.fits, ga]; exact ⟨c1, c2, Or.inl trivial⟩
    · simp only [Kind.straddles, ga]; rintro ⟨-, h1, h2, -⟩; omega
    · simp only [Kind.outShape, ga]
    · obtain ⟨a1, a2⟩ := hx t (by simp [Kind.kids])
      rw [ga] at a1
      refine ⟨(x t).tab.slabFill d lo hi zero, ?_, ?_⟩
      · subst a1; exact if_pos ⟨c1, c2, Or.inl rfl⟩
      · exact slabFill_tab (by rw [tab_tab, a2]) (by rw [tab_shape, a1]; exact c1)
  | reshape t s' =>
    obtain ⟨sa, ha, h'⟩ := Option.map_eq_some_iff.1 (show (sh t).map (fun _ => s') = some s from h)
    subst h'
    refine ⟨.reshape t, s', rfl, ?_, trivial, by simp, fun _ _ => trivial, trivial, id, trivial, rfl, fun scal x x' hx => ?_⟩
    · intro n hn
      obtain rfl := List.mem_singleton.1 hn
      rw [ha]; rfl
    · obtain ⟨a1, a2⟩ := hx t (by simp [Kind.kids])
      exact ⟨_, rfl, reshape_tab _ (by rw [tab_tab, a2])⟩
  | transpose t =>
    obtain ⟨sa, ha, h'⟩ := Option.map_eq_some_iff.1 (show (sh t).map List.reverse = some s from h)
    subst h'
    refine ⟨.transpose t, [], rfl, ?_, trivial, by simp, fun _ _ => trivial, trivial, id, trivial, ?_, fun scal x x' hx => ?_⟩
    · intro n hn
      obtain rfl := List.mem_singleton.1 hn
      rw [ha]; rfl
    · show ((sh t).getD []).reverse = _; rw [ha]; rfl
    · obtain ⟨a1, a2⟩ := hx t (by simp [Kind.kids])
      exact ⟨_, rfl, transpose_tab (by rw [tab_tab, a2])⟩

theorem Pend.fshape {w : World T} {n : Nat} {sh : List Nat} {f : (Ptr → T) → STensor T} {S : Ptr → Prop} {safe : Prop}
    (p : Pend w n sh f S safe) (val : Ptr → T) : (f val).shape = sh := by
  obtain ⟨t, h1, h2⟩ := p.val val
  have hv := value_shape (s := w.store) (val := val) (n + 1) n (fun x hx => (p.expr x hx).2.2.2)
  rw [h1, p.shape] at hv
  rw [← (tab_iff.1 h2).1]
  exact Option.some.inj hv

theorem call_newNode (c : Call T) : ∃ k own, c.run = Run.newNode (Store.lazyNode k own) := by
  cases c <;> exact ⟨_, _, rfl⟩

theorem scalarOK_calls {h h' : Heap T} (hn : h.next = h'.next) (c : Call T) (hc : c.scalarOK h) : c.scalarOK h' := by
  cases c <;> first | trivial | exact ⟨hc.1, hn ▸ hc.2⟩

/-- all tensors known to have a shape are pending -/
def AllPend (w : World T) (sh : Nat → Option (List Nat)) (x : (Ptr → T) → Nat → STensor T) : Prop :=
  ∀ m s, sh m = some s → Pend w m s (fun val => x val m) (fun _ => True) (∀ x y : T, divPanics x y = false)

theorem run_calls : ∀ (calls : List (Call T)) (w : World T) (sh : Nat → Option (List Nat)) (x : (Ptr → T) → Nat → STensor T),
    (∀ c ∈ calls, c.scalarOK w.store.heap) → AllPend w sh x → ∃ w', runCalls calls w = .ok () w' ∧ w'.store.heap = w.store.heap ∧
      w'.store.ctx = w.store.ctx ∧ w'.nodeNext = w.nodeNext + calls.length ∧ w'.layers = w.layers ∧
      (∀ m, m < w.nodeNext → w'.store.nodes m = w.store.nodes m) ∧
      AllPend w' (shapesAfter calls w.nodeNext sh) (fun val => valuesAfter val calls w.nodeNext (x val))
  | [], w, sh, x, _, hp => ⟨w, rfl, rfl, rfl, rfl, rfl, fun _ _ => rfl, hp⟩
  | c :: cs, w, sh, x, hs, hp => by
    obtain ⟨k, own, hr⟩ := call_newNode c
    obtain ⟨w1, hw1⟩ : ∃ w1 : World T, w1 = { w with store := w.store.setNode w.nodeNext (Store.lazyNode k own), nodeNext := w.nodeNext + 1 } := ⟨_, rfl⟩
    have e1 : c.run w = .ok w.nodeNext w1 := by rw [hr, hw1]; rfl
    have en : w1.nodeNext = w.nodeNext + 1 := by rw [hw1]
    have eh : w1.store.heap = w.store.heap := by rw [hw1]; rfl
    have ec : w1.store.ctx = w.store.ctx := by rw [hw1]; rfl
    have el : w1.layers = w.layers := by rw [hw1]
    have eo : ∀ m, m ≠ w.nodeNext → w1.store.nodes m = w.store.nodes m := fun m hm => by
      rw [hw1]; simp [Store.setNode, hm]
    have em : w1.store.nodes w.nodeNext = Store.lazyNode k own := by rw [hw1]; simp [Store.setNode]
    have hold : AllPend w1 sh x := fun m s hm =>
      (hp m s hm).same (fun y hy => eo y (by omega)) (by omega) (by rw [eh])
    have hp1 : AllPend w1 (upd sh w.nodeNext (c.shape sh)) (fun val => upd (x val) w.nodeNext (c.value val (x val))) := by
      intro m s hm
      simp only [upd] at hm ⊢
      by_cases hmn : m = w.nodeNext
      · rw [if_pos hmn] at hm
        simp only [hmn, if_true]
        obtain ⟨k', own', M⟩ := call_makes c hm
        have hkk : Store.lazyNode k own = Store.lazyNode k' own' := by
          have h1 := M.run
          rw [hr] at h1
          have h2 := congrFun h1 w
          simp only [Run.newNode, Out.ok.injEq, true_and] at h2
          have h3 := congrArg (fun w' : World T => w'.store.nodes w.nodeNext) h2
          simpa [Store.setNode] using h3
        have hkids : ∀ n ∈ k'.kids, ∃ s, sh n = some s := fun n hn => Option.isSome_iff_exists.1 (M.kids n hn)
        have P := Pend.node (w := w1) (n := w.nodeNext) (k := k') (own := own') (sh := fun n => (sh n).getD [])
          (F := fun n val => x val n) (G := fun val => c.value val (x val)) (S := fun _ => True) (safe := ∀ x y : T, divPanics x y = false)
          (by rw [em, hkk]) (by omega)
          (fun n hn => by obtain ⟨s, h⟩ := hkids n hn; exact (hp n s h).lt)
          (fun n hn => by obtain ⟨s, h⟩ := hkids n hn; simp only [h, Option.getD_some]; exact hold n s h)
          M.expr M.nonleaf (M.scal _ (scalarOK_calls (by rw [eh]) c (hs c List.mem_cons_self))) M.fits M.no
          (fun val => M.den val (x val) (x val) fun n hn => ⟨by
            obtain ⟨s, h⟩ := hkids n hn
            rw [h]; exact (hp n s h).fshape val, rfl⟩)
          (fun hd => ⟨M.red, divOK_of hd k'⟩)
        rw [M.shape] at P
        exact P
      · rw [if_neg hmn] at hm
        simp only [hmn, if_false]
        exact hold m s hm
    obtain ⟨w', h1, h2, h3, h4, h5, h6, h7⟩ := run_calls cs w1 _ _
      (fun c' hc' => scalarOK_calls (by rw [eh]) c' (hs c' (List.mem_cons_of_mem _ hc'))) hp1
    refine ⟨w', ?_, h2.trans eh, h3.trans ec, by rw [h4, en]; simp; omega, h5.trans el,
      fun m hm => (h6 m (by omega)).trans (eo m (by omega)), ?_⟩
    · show (c.run w).bind (fun _ => runCalls cs) = _
      rw [e1]; exact h1
    · rw [en] at h7; exact h7

/-- equal elements in, equal elements out -/
theorem valuesAfter_tab (scal : Ptr → T) : ∀ (calls : List (Call T)) (n : Nat) (sh : Nat → Option (List Nat)) (x x' : Nat → STensor T),
    (∀ m s, sh m = some s → (x m).shape = s ∧ (x m).tab = (x' m).tab) →
    ∀ m s, shapesAfter calls n sh m = some s → (valuesAfter scal calls n x m).tab = (valuesAfter scal calls n x' m).tab
  | [], _, _, _, _, h, m, s, hm => (h m s hm).2
  | c :: cs, n, sh, x, x', h, m, s, hm => by
    refine valuesAfter_tab scal cs (n + 1) _ _ _ (fun m s hm => ?_) m s hm
    simp only [upd] at hm ⊢
    by_cases hmn : m = n
    · rw [if_pos hmn] at hm
      simp only [hmn, if_true]
      obtain ⟨k, own, M⟩ := call_makes c hm
      have hk : ∀ n ∈ k.kids, (x n).shape = (sh n).getD [] ∧ (x n).tab = (x' n).tab := fun n hn => by
        obtain ⟨s, hs⟩ := Option.isSome_iff_exists.1 (M.kids n hn)
        rw [hs]; exact h n s hs
      obtain ⟨t, h1, h2⟩ := M.den scal x x' hk
      obtain ⟨t', h1', h2'⟩ := M.den scal x x fun n hn => ⟨(hk n hn).1, rfl⟩
      have : t = t' := by rw [h1] at h1'; exact Option.some.inj h1'
      subst this
      refine ⟨?_, h2'.symm.trans h2⟩
      rw [← (tab_iff.1 h2').1, (den_some h1).2, ← M.shape]
      exact outShape_get fun c hc => (hk c hc).1
    · rw [if_neg hmn] at hm
      simp only [hmn, if_false]
      exact h m s hm

end Godeep
