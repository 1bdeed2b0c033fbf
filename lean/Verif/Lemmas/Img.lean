import Verif.Model.Img
import Verif.Lemmas.Float64
import Verif.Props.MatBasic
/-
  The loops and the coordinates of the image functions.
-/
set_option linter.unusedSectionVars false
namespace Godeep
open Spec GoNum

variable {T : Type} [GoNum T]

/-! ### coordinates -/

/-- the source coordinate computed for target coordinate `x`, source extent `s`, target extent `t` -/
def srcCoord (s t x : Nat) : Nat := truncNat (fl64 (fl64 x * fl64 (fl64 s / fl64 t)))

theorem srcCoord_bounds {s t x : Nat} (hs : s ≤ 2 ^ 53) (ht : t ≤ 2 ^ 53) (hx : x < t) :
    ∃ v : ℚ, srcCoord s t x = ⌊v⌋.toNat ∧ 0 ≤ v ∧
      (x : ℚ) * s / t * (1 - 1 / 2 ^ 53) ^ 2 ≤ v ∧ v ≤ (x : ℚ) * s / t * (1 + 1 / 2 ^ 53) ^ 2 := by
  have htp : (0 : ℚ) < t := by exact_mod_cast (by omega : 0 < t)
  have e1 : fl64 (s : ℚ) = s := fl64_nat hs
  have e2 : fl64 (t : ℚ) = t := fl64_nat ht
  have e3 : fl64 (x : ℚ) = x := fl64_nat (by omega)
  have hq : (0 : ℚ) ≤ s / t := by positivity
  have a1 := abs_le.1 (fl64_err hq)
  have hx0 : (0 : ℚ) ≤ x := by positivity
  have n1 : 0 ≤ fl64 ((s : ℚ) / t) := fl64_nonneg hq
  have hq2 : (0 : ℚ) ≤ x * fl64 ((s : ℚ) / t) := mul_nonneg hx0 n1
  have a2 := abs_le.1 (fl64_err hq2)
  refine ⟨fl64 (x * fl64 ((s : ℚ) / t)), by unfold srcCoord truncNat; rw [e1, e2, e3], fl64_nonneg hq2, ?_, ?_⟩
  · have h1 : (x : ℚ) * (s / t * (1 - 1 / 2 ^ 53)) ≤ x * fl64 ((s : ℚ) / t) :=
      mul_le_mul_of_nonneg_left (by linarith [a1.1]) hx0
    calc (x : ℚ) * s / t * (1 - 1 / 2 ^ 53) ^ 2 = (x * (s / t * (1 - 1 / 2 ^ 53))) * (1 - 1 / 2 ^ 53) := by ring
      _ ≤ (x * fl64 ((s : ℚ) / t)) * (1 - 1 / 2 ^ 53) :=
        mul_le_mul_of_nonneg_right h1 (by norm_num)
      _ ≤ _ := by linarith [a2.1]
  · have h1 : x * fl64 ((s : ℚ) / t) ≤ (x : ℚ) * (s / t * (1 + 1 / 2 ^ 53)) :=
      mul_le_mul_of_nonneg_left (by linarith [a1.2]) hx0
    calc _ ≤ (x * fl64 ((s : ℚ) / t)) * (1 + 1 / 2 ^ 53) := by linarith [a2.2]
      _ ≤ (x * (s / t * (1 + 1 / 2 ^ 53))) * (1 + 1 / 2 ^ 53) :=
        mul_le_mul_of_nonneg_right h1 (by norm_num)
      _ = _ := by ring

theorem srcCoord_lt {s t x : Nat} (hs : s ≤ 2 ^ 53) (ht : t ≤ 2 ^ 52) (hx : x < t) (hp : 0 < s) :
    srcCoord s t x < s := by
  obtain ⟨v, e, v0, -, v2⟩ := srcCoord_bounds hs (le_trans ht (by norm_num)) hx
  rw [e]
  have htp : (0 : ℚ) < t := by exact_mod_cast (by omega : 0 < t)
  have hsp : (0 : ℚ) < s := by exact_mod_cast hp
  have hxt : (x : ℚ) ≤ t - 1 := by
    have : (x : ℚ) + 1 ≤ t := by exact_mod_cast hx
    linarith
  have hlt : v < s := by
    refine lt_of_le_of_lt v2 ?_
    have ht' : (t : ℚ) ≤ 2 ^ 52 := by exact_mod_cast ht
    have : (x : ℚ) * s / t * (1 + 1 / 2 ^ 53) ^ 2 ≤ (t - 1) * s / t * (1 + 1 / 2 ^ 53) ^ 2 := by gcongr
    refine lt_of_le_of_lt this ?_
    have e : ((t : ℚ) - 1) * s / t * (1 + 1 / 2 ^ 53) ^ 2 = s * (((t : ℚ) - 1) * (1 + 1 / 2 ^ 53) ^ 2 / t) := by ring
    rw [e]
    have : ((t : ℚ) - 1) * (1 + 1 / 2 ^ 53) ^ 2 / t < 1 := by
      rw [div_lt_one htp]
      have e2 : (1 + 1 / 2 ^ 53 : ℚ) ^ 2 = 1 + (1 / 2 ^ 52 + 1 / 2 ^ 106) := by norm_num
      rw [e2]
      nlinarith
    nlinarith
  have := Int.floor_lt.2 (show v < ((s : ℤ) : ℚ) by exact_mod_cast hlt)
  omega

/-- The rounding can only make the coordinate one too small, and only where the exact coordinate is a
whole number. -/
theorem srcCoord_floor {s t x : Nat} (hs : s ≤ 2 ^ 53) (ht : t ≤ 2 ^ 53) (hx : x < t) (hxs : x * s < 2 ^ 51) :
    srcCoord s t x = x * s / t ∨ (t ∣ x * s ∧ srcCoord s t x + 1 = x * s / t) := by
  obtain ⟨v, e, v0, v1, v2⟩ := srcCoord_bounds hs ht hx
  have htp : 0 < t := by omega
  have htq : (0 : ℚ) < t := by exact_mod_cast htp
  set k := x * s / t with hk
  set r := x * s % t with hr
  have hdm : t * k + r = x * s := Nat.div_add_mod (x * s) t
  have hrt : r < t := Nat.mod_lt _ htp
  have hdq : (x : ℚ) * s = t * k + r := by exact_mod_cast hdm.symm
  have hM : (x : ℚ) * s < 2 ^ 51 := by exact_mod_cast hxs
  have hM0 : (0 : ℚ) ≤ (x : ℚ) * s := by positivity
  have hr' : (r : ℚ) ≤ t - 1 := by
    have : (r : ℚ) + 1 ≤ t := by exact_mod_cast hrt
    linarith
  -- upper bound
  have up : v < k + 1 := by
    refine lt_of_le_of_lt v2 ?_
    have e2 : (1 + 1 / 2 ^ 53 : ℚ) ^ 2 = 1 + (1 / 2 ^ 52 + 1 / 2 ^ 106) := by norm_num
    rw [e2, div_mul_eq_mul_div, div_lt_iff₀ htq]
    have : (x : ℚ) * s * (1 / 2 ^ 52 + 1 / 2 ^ 106) < 1 := by
      have : (x : ℚ) * s * (1 / 2 ^ 52 + 1 / 2 ^ 106) ≤ 2 ^ 51 * (1 / 2 ^ 52 + 1 / 2 ^ 106) := by gcongr
      refine lt_of_le_of_lt this (by norm_num)
    nlinarith
  have fu : ⌊v⌋ ≤ k := by
    have := Int.floor_lt.2 (show v < ((k + 1 : ℤ) : ℚ) by push_cast; exact up)
    omega
  have f0 : 0 ≤ ⌊v⌋ := Int.floor_nonneg.2 v0
  have lowerr : (x : ℚ) * s / t - 1 / t < v := by
    refine lt_of_lt_of_le ?_ v1
    have e2 : (1 - 1 / 2 ^ 53 : ℚ) ^ 2 = 1 - (1 / 2 ^ 52 - 1 / 2 ^ 106) := by norm_num
    rw [e2]
    have h1 : (x : ℚ) * s * (1 / 2 ^ 52 - 1 / 2 ^ 106) < 1 := by
      have : (x : ℚ) * s * (1 / 2 ^ 52 - 1 / 2 ^ 106) ≤ 2 ^ 51 * (1 / 2 ^ 52 - 1 / 2 ^ 106) := by
        apply mul_le_mul_of_nonneg_right hM.le; norm_num
      refine lt_of_le_of_lt this (by norm_num)
    have h2 : (x : ℚ) * s / t * (1 - (1 / 2 ^ 52 - 1 / 2 ^ 106)) = (x : ℚ) * s / t - (x * s * (1 / 2 ^ 52 - 1 / 2 ^ 106)) / t := by ring
    rw [h2]
    have : (x : ℚ) * s * (1 / 2 ^ 52 - 1 / 2 ^ 106) / t < 1 / t := by gcongr
    linarith
  rcases Nat.eq_zero_or_pos r with h0 | hpos
  · have hdv : t ∣ x * s := Nat.dvd_of_mod_eq_zero (hr ▸ h0)
    have low : (k : ℚ) - 1 < v := by
      have e3 : (x : ℚ) * s / t = k := by rw [hdq, h0]; push_cast; field_simp; ring
      rw [e3] at lowerr
      have : (1 : ℚ) / t ≤ 1 := by rw [div_le_one htq]; exact_mod_cast htp
      linarith
    have fl : (k : ℤ) - 1 ≤ ⌊v⌋ := Int.le_floor.2 (by push_cast; linarith)
    rw [e]
    by_cases hfk : ⌊v⌋ = k
    · left; omega
    · rcases Nat.eq_zero_or_pos k with hk0 | hk0
      · left; omega
      · right; exact ⟨hdv, by omega⟩
  · left
    have low : (k : ℚ) ≤ v := by
      have e3 : (x : ℚ) * s / t = k + r / t := by rw [hdq]; field_simp
      rw [e3] at lowerr
      have : (1 : ℚ) / t ≤ r / t := by
        have : (1 : ℚ) ≤ r := by exact_mod_cast hpos
        gcongr
      linarith
    have fl : (k : ℤ) ≤ ⌊v⌋ := Int.le_floor.2 (by push_cast; exact low)
    rw [e]; omega

theorem srcCoord_same {s x : Nat} (hs : s ≤ 2 ^ 53) (hx : x < s) : srcCoord s s x = x := by
  have h : (s : ℚ) ≠ 0 := by
    have : s ≠ 0 := by omega
    exact_mod_cast this
  unfold srcCoord truncNat
  rw [fl64_nat hs, div_self h, fl64_nat (by omega : x ≤ 2 ^ 53)]
  have : fl64 (1 : ℚ) = 1 := by have := fl64_nat (n := 1) (by norm_num); simpa using this
  rw [this, mul_one, fl64_nat (by omega : x ≤ 2 ^ 53)]
  simp

/-! ### loops -/

theorem imgEach_append {ι : Type} (a b : List ι) (f : ι → Heap T → Out (Heap T) Unit) (h : Heap T) :
    Img.each (a ++ b) f h = (Img.each a f h).bind fun _ h => Img.each b f h := by
  induction a generalizing h with
  | nil => rfl
  | cons i a ih =>
    simp only [List.cons_append, Img.each]
    cases f i h with
    | ok u h' => simp only [Out.bind_ok]; exact ih h'
    | err e h' => rfl
    | panic => rfl

theorem imgEach_map {ι κ : Type} (g : κ → ι) (l : List κ) (f : ι → Heap T → Out (Heap T) Unit) (h : Heap T) :
    Img.each (l.map g) f h = Img.each l (fun k => f (g k)) h := by
  induction l generalizing h with
  | nil => rfl
  | cons i a ih => simp only [List.map_cons, Img.each, ih]

theorem imgEach_nested {ι κ : Type} (l : List ι) (g : ι → List κ) (f : κ → Heap T → Out (Heap T) Unit) :
    Img.each l (fun i => Img.each (g i) f) = Img.each (l.flatMap g) f := by
  funext h
  induction l generalizing h with
  | nil => rfl
  | cons i a ih =>
    simp only [List.flatMap_cons, imgEach_append, Img.each]
    cases Img.each (g i) f h with
    | ok u h' => simp only [Out.bind_ok]; exact ih h'
    | err e h' => rfl
    | panic => rfl

/-- the triples of the loops in the order of the code -/
def triples (w hh d : Nat) : List (Nat × Nat × Nat) :=
  (List.range w).flatMap fun x => (List.range hh).flatMap fun y => (List.range d).map fun k => (x, y, k)

theorem mem_triples {w hh d x y k : Nat} : (x, y, k) ∈ triples w hh d ↔ x < w ∧ y < hh ∧ k < d := by
  simp [triples]

theorem imgEach_triples (w hh d : Nat) (f : Nat → Nat → Nat → Heap T → Out (Heap T) Unit) :
    Img.each (List.range w) (fun x => Img.each (List.range hh) fun y => Img.each (List.range d) (f x y)) =
      Img.each (triples w hh d) (fun t => f t.1 t.2.1 t.2.2) := by
  unfold triples
  rw [← imgEach_nested]
  congr 1; funext x
  rw [← imgEach_nested]
  congr 1; funext y; funext h
  rw [imgEach_map]

/-- a loop that succeeds -/
theorem imgEach_ok {ι : Type} {f : ι → Heap T → Out (Heap T) Unit} (I : List ι → Heap T → Prop) (l : List ι)
    (hs : ∀ d i r, l = d ++ i :: r → ∀ h, I d h → ∃ h', f i h = .ok () h' ∧ I (d ++ [i]) h') {h : Heap T}
    (h0 : I [] h) : ∃ h', Img.each l f h = .ok () h' ∧ I l h' := by
  suffices H : ∀ (r d : List ι), l = d ++ r → ∀ h, I d h → ∃ h', Img.each r f h = .ok () h' ∧ I l h' from
    H l [] rfl h h0
  intro r
  induction r with
  | nil => intro d hd h hI; rw [List.append_nil] at hd; subst hd; exact ⟨h, rfl, hI⟩
  | cons i r ih =>
    intro d hd h hI
    obtain ⟨h1, e1, i1⟩ := hs d i r hd h hI
    obtain ⟨h2, e2, i2⟩ := ih (d ++ [i]) (by rw [hd]; simp) h1 i1
    exact ⟨h2, by simp only [Img.each, e1, Out.bind_ok, e2], i2⟩

/-- a loop one of whose iterations always returns an error -/
theorem imgEach_err {ι : Type} {f : ι → Heap T → Out (Heap T) Unit} (I : Heap T → Prop) (l : List ι)
    (hs : ∀ i ∈ l, ∀ h, I h → (∃ h', f i h = .ok () h' ∧ I h') ∨ ∃ e h', f i h = .err e h')
    {i : ι} (hi : i ∈ l) (he : ∀ h, I h → ∃ e h', f i h = .err e h') {h : Heap T} (h0 : I h) :
    ∃ e h', Img.each l f h = .err e h' := by
  induction l generalizing h with
  | nil => simp at hi
  | cons j l ih =>
    rcases hs j (by simp) h h0 with ⟨h1, e1, i1⟩ | ⟨e, h1, e1⟩
    · rcases List.mem_cons.1 hi with rfl | hi
      · obtain ⟨e, h2, e2⟩ := he h h0
        rw [e1] at e2; cases e2
      · obtain ⟨e, h2, e2⟩ := ih (fun i hi => hs i (by simp [hi])) hi i1
        exact ⟨e, h2, by simp only [Img.each, e1, Out.bind_ok, e2]⟩
    · exact ⟨e, h1, by simp only [Img.each, e1, Out.bind_err]⟩

theorem get_error {h : Heap T} {m : Mat} {t : STensor T} (H : Holds h m t) {idx : List Nat}
    (hl : idx.length = t.shape.length) (hr : ¬ InRange t.shape idx) : ∃ e, m.get idx h = .err e := by
  have hm : m.mul = strides m.shape := by rw [H.mul]; simp
  unfold Mat.get Mat.getOperand getIndex
  rw [if_neg (by rw [hm]; simp), if_neg (by rw [H.shape]; omega)]
  cases hc : checkRange m.shape idx 0 with
  | some e => exact ⟨e, by simp⟩
  | none => exact absurd ((checkRange_none _ _ _ (by rw [H.shape]; exact hl)).1 hc) (H.shape ▸ hr)

/-- an ignored `Set`: writes the element if there is one -/
theorem ignored_set {h : Heap T} {m : Mat} {t : STensor T} (H : Holds h m t) (hnd : m.ops.Nodup) (v : T)
    {idx : List Nat} (hl : idx.length = t.shape.length) :
    ∃ h', Img.ignoreErr (m.set v idx h) = .ok () h' ∧
      Holds h' m ⟨t.shape, fun i => if i = idx then v else t.get i⟩ ∧ h'.next = h.next ∧
      ∀ q, q ∉ m.ops → h'.val q = h.val q := by
  by_cases hr : InRange t.shape idx
  · obtain ⟨h', e1, e2⟩ := Props.C06_set_updates_one m t h H hnd v idx hr
    have hf := fun q hq => (Props.set_frame m v idx h q hq).1 () h' e1
    refine ⟨h', by rw [e1]; rfl, e2, ?_, fun q hq => (hf q hq).1⟩
    unfold Mat.set at e1
    cases ho : m.getOperand idx with
    | ok p =>
      rw [ho] at e1
      simp only [Heap.store] at e1
      split at e1
      · cases e1
      · cases e1; rfl
    | err e => rw [ho] at e1; cases e1
    | panic => rw [ho] at e1; cases e1
  · obtain ⟨e, he⟩ := Props.C06_set_error m t h H v idx hl hr
    refine ⟨h, by rw [he]; rfl, ?_, rfl, fun _ _ => rfl⟩
    refine ⟨H.shape, H.mul, H.len, H.valid, fun i hi => ?_⟩
    simp only
    rw [if_neg (fun hc : i = idx => hr (hc ▸ hi))]
    exact H.get i hi

end Godeep
