import Verif.Lemmas.ModelText
import Verif.Props.Branched
import Verif.Props.Text
/-
  C85: the text of a model.
-/
set_option linter.unusedSectionVars false

namespace Godeep.Props
open Godeep Spec GoNum

variable {T : Type} [GoNum T]

theorem seqLines_congr {f g : Nat → Nat} {shape : List Nat} {ls : List (LSpec T)} (h : ∀ k ≤ ls.length, f k = g k) :
    seqLines f shape ls = seqLines g shape ls := by
  unfold seqLines
  rw [h 0 (by omega)]
  refine congrArg (List.cons _) (List.map_congr_left fun k hk => ?_)
  have := List.mem_range.1 hk
  rw [h k (by omega), h (k + 1) (by omega)]

/-- C85, for sequential models (of layers of any kinds and sizes that fit together): after `Compile`, and in any later
state, `String` returns the header, one line for each layer in order (with the index of the layer before it, the name
of its kind and the shape of its output) and the footer, and it changes nothing.  The indices of the layers do not
change; their values are not stated because Go does not fix them (`return p.Index, p.PreBuild()`).  What is missing:
models with branches, see `C85_string_branched` and `C85_repeated`; models that are not compiled, see
`C85_not_compiled`. -/
theorem C85_string_partial (hlaw : eq (add zero one) (zero : T) = false) {shape : List Nat} {ls : List (LSpec T)}
    (hfit : Fits ls shape) {w0 : World T} (hpos : 0 < w0.store.heap.next) :
    ∃ m w1 idx, compiled shape ls w0 = .ok m w1 ∧ ∀ w2, Steps w0 w1 m w1 w2 →
      NetM.string m w2 = .ok (modelText (seqLines idx shape ls)) w2 := by
  obtain ⟨m, w1, e, d, _, _, _, M, _, R⟩ := wp_total (compiled_ok hlaw hpos (fun s _ => ffGood_all s) hfit)
  refine ⟨m, w1, fun k => (w1.layers (d.b + k)).index, e, fun w2 hst => ?_⟩
  have L := live_steps M hst
  have hl : ∀ k ≤ ls.length, (w2.layers (d.b + k)).fwd = (w1.layers (d.b + k)).fwd := fun k hk =>
    L.layers _ (by rw [M.base]; omega) (by rw [M.base, M.next]; omega)
  have S := R.shown.later L.ext hl
  rw [S.string (L.comp M).last (by have := L.layerNext; rw [M.next, ← M.base] at this; omega)]
  rw [seqLines_congr (f := fun k => (w2.layers (d.b + k)).index) (g := fun k => (w1.layers (d.b + k)).index)
    fun k hk => (congrArg Layer.index (hl k hk) :)]

/-- there is one line for each layer -/
theorem seqLines_length (idx : Nat → Nat) (shape : List Nat) (ls : List (LSpec T)) : (seqLines idx shape ls).length = ls.length + 1 := by
  simp [seqLines]

theorem push_uncompiled {b : Nat} {w : World T} {ls : List (LSpec T)} {shape : List Nat} {inp0 : Nat} {m0 : Mat}
    (S : SeqBase shape ls b inp0 m0 w) (ho : (w.layers b).output = none) (f k : Nat) (hk : k ≤ ls.length) :
    LayerM.pushToString f (b + k) w = .panic := by
  induction f generalizing k with
  | zero => rfl
  | succ f ih =>
    cases k with
    | zero =>
      show LayerM.pushToString (f + 1) b w = _
      show (match (w.layers b).kind with
        | .concat l1 l2 _ => _
        | _ => _ : Run T (List Char)) w = _
      rw [S.kind]
      show (match (w.layers b).pre with
        | some p => _
        | none => _ : Run T (List Char)) w = _
      rw [S.pre]
      show (LayerM.shapeText (w.layers b).output w).bind _ = _
      rw [ho]; rfl
    | succ k =>
      have h := S.at (k := k) hk
      rw [show b + 1 + k = b + (k + 1) by omega] at h
      have e : LayerM.pushToString (f + 1) (b + (k + 1)) w = (match (w.layers (b + (k + 1))).pre with
          | some p => (LayerM.pushToString f p w).bind fun t => (do
            let y ← Run.layer p
            let o ← LayerM.shapeText (w.layers (b + (k + 1))).output
            return t ++ ("<Layer[".toList ++ Text.dec (w.layers (b + (k + 1))).index ++ "] (".toList ++ Text.dec y.index ++ ") => ".toList ++
              LayerM.typeName (w.layers (b + (k + 1))).kind ++ ": O".toList ++ o ++ ">\n".toList) : Run T (List Char))
          | none => (LayerM.shapeText (w.layers (b + (k + 1))).output w).bind fun o => (do
            return "<Layer[".toList ++ Text.dec (w.layers (b + (k + 1))).index ++ "] => ".toList ++ LayerM.typeName (w.layers (b + (k + 1))).kind ++
              ": O".toList ++ o ++ ">\n".toList : Run T (List Char))) := by
        show (match (w.layers (b + (k + 1))).kind with
          | .concat l1 l2 _ => _
          | _ => _ : Run T (List Char)) w = _
        rw [h.kind]
        cases (w.layers (b + (k + 1))).pre <;> cases ls[k] <;> rfl
      rw [e, h.pre, show b + (k + 1) - 1 = b + k by omega]
      show (LayerM.pushToString f (b + k) w).bind _ = _
      rw [ih k (by omega)]; rfl

/-- C85: `String` of a sequential model that has not been compiled panics, whatever its layers are -/
theorem C85_not_compiled (shape : List Nat) (ls : List (LSpec T)) {w0 : World T} (hpos : 0 < w0.store.heap.next) :
    ∃ m w1, sequential shape ls w0 = .ok m w1 ∧ NetM.string m w1 = .panic := by
  obtain ⟨m, w1, e, rfl, _, inp0, m0, S, _⟩ := wp_total (sequential_ok shape ls hpos)
  refine ⟨_, w1, e, ?_⟩
  obtain ⟨d, hd⟩ := S.lay0
  show (Run.deref (w1.nets _).last w1).bind _ = _
  rw [S.net]
  show (LayerM.pushToString (w1.layerNext + 1) (w0.layerNext + ls.length) w1).bind _ = _
  rw [push_uncompiled S.toSeqBase (by rw [hd]; rfl) _ _ (le_refl _)]
  rfl

/-- C85, for models with branches: after `Compile`, and in any later state, `String` returns the header, the lines of
the output layer and the footer, and it changes nothing.  The lines of a layer are the lines of the layers it reads,
followed by its own line: layers that are read twice are listed twice. -/
theorem C85_string_branched {shape : List Nat} {ns : List (BNode T)} {o : Nat} (hfit : GraphFits ns shape) (ho : o ≤ ns.length)
    (hlaw : ∀ c, 0 < c → c ≤ 2 * ns.length + 3 → eq (counted c) (zero : T) = false) {w0 : World T} (hpos : 0 < w0.store.heap.next) :
    ∃ m ids w1 idx, branchedCompiled shape ns o w0 = .ok (m, ids) w1 ∧ ids.length = ns.length + 1 ∧
      ∀ w2, BSteps w0 w1 m ids w1 w2 →
        NetM.string m w2 = .ok (modelText ((graphLines idx shape ns).getD o [])) w2 := by
  obtain ⟨⟨m, ids⟩, w1, e, rfl, d, M⟩ := wp_total (branched_compiled (fun s => ffGood_all s) hlaw hpos hfit ho)
  obtain ⟨S, hlast⟩ := wp_ok (branched_shown (fun s => ffGood_all s) hlaw hpos hfit ho) e
  refine ⟨m, _, w1, fun k => (w1.layers (w0.layerNext + k)).index, e, by simp [gids], fun w2 hst => ?_⟩
  have L := blive_steps M hst
  have hl : ∀ k ≤ ns.length, w2.layers (w0.layerNext + k) = w1.layers (w0.layerNext + k) := fun k hk =>
    L.layers _ (by omega) (by rw [M.next]; omega)
  have S2 := S.later L.ext hl
  have hr : ∀ (k : Nat) (n : BNode T), ns[k]? = some n → ∀ p ∈ n.reads, p ≤ k := fun k n h => (hfit k n h).1
  have hnx := L.next
  rw [M.next] at hnx
  rw [string_ok (by rw [L.nets]; exact hlast) (S2.push hr o .out (by omega))]
  have key : ∀ k ≤ ns.length, glines (fun k => (w2.layers (w0.layerNext + k)).index) shape ns k =
      glines (fun k => (w1.layers (w0.layerNext + k)).index) shape ns k := by
    intro k
    induction k using Nat.strong_induction_on with
    | _ k ih =>
      intro hk
      cases k with
      | zero => rw [glines_zero, glines_zero, hl 0 (by omega)]
      | succ k =>
        obtain ⟨n, hn⟩ : ∃ n, ns[k]? = some n := ⟨_, List.getElem?_eq_getElem hk⟩
        rw [glines_succ hn (hr k n hn), glines_succ hn (hr k n hn)]
        cases n with
        | layer s p =>
          have := hr k _ hn p (by simp [BNode.reads])
          simp only [BNode.lines, ih p (by omega) (by omega), hl p (by omega), hl (k + 1) hk]
        | concat i j d =>
          have := hr k _ hn i (by simp [BNode.reads])
          have := hr k _ hn j (by simp [BNode.reads])
          simp only [BNode.lines, ih i (by omega) (by omega), ih j (by omega) (by omega), hl i (by omega), hl j (by omega), hl (k + 1) hk]
  rw [key o ho]
  rfl

/-- `k` layers, each the concatenation of the one before with itself -/
def doubles (k : Nat) : List (BNode T) := (List.range k).map fun i => .concat i i 0

theorem doubles_get {k i : Nat} {n : BNode T} (h : (doubles k)[i]? = some n) : i < k ∧ n = .concat i i 0 := by
  unfold doubles at h
  rw [List.getElem?_map] at h
  rcases Nat.lt_or_ge i k with hi | hi
  · rw [List.getElem?_range hi] at h
    cases h; exact ⟨hi, rfl⟩
  · rw [List.getElem?_eq_none (by simpa using hi)] at h
    cases h

theorem doubles_getElem {k i : Nat} (h : i < k) : (doubles k : List (BNode T))[i]? = some (.concat i i 0) := by
  unfold doubles
  rw [List.getElem?_map, List.getElem?_range h]; rfl

theorem doubles_shape {k i : Nat} (h : i ≤ k) : gshape (doubles k : List (BNode T)) [1] i = [2 ^ i] := by
  induction i with
  | zero => exact gshape_zero _ _
  | succ i ih =>
    rw [gshape_succ (doubles_getElem h) (by simp [BNode.reads])]
    simp only [BNode.outShape, ih (by omega)]
    simp [pow_succ]; omega

theorem doubles_fits (k : Nat) : GraphFits (doubles k : List (BNode T)) [1] := by
  intro i n hn
  obtain ⟨hi, rfl⟩ := doubles_get hn
  refine ⟨by simp [BNode.reads], ?_⟩
  show 0 < (gshape (doubles k : List (BNode T)) [1] i).length ∧ gshape (doubles k : List (BNode T)) [1] i = _
  have := doubles_shape (T := T) (k := k) (i := i) (by omega)
  refine ⟨by rw [this]; simp, ?_⟩
  show _ = List.set (gshape (doubles k : List (BNode T)) [1] i) 0 ((gshape (doubles k : List (BNode T)) [1] i).getD 0 0)
  rw [this]; rfl

theorem doubles_lines (idx : Nat → Nat) {k i : Nat} (h : i ≤ k) :
    (glines idx [1] (doubles k : List (BNode T)) i).length + 1 = 2 ^ (i + 1) ∧
    2 ^ i ≤ (glines idx [1] (doubles k : List (BNode T)) i).count (inputLine (idx 0) [1]) := by
  induction i with
  | zero => rw [glines_zero]; simp
  | succ i ih =>
    obtain ⟨h1, h2⟩ := ih (by omega)
    rw [glines_succ (doubles_getElem h) (by simp [BNode.reads])]
    simp only [BNode.lines, List.length_append, List.count_append, List.length_singleton]
    constructor
    · rw [pow_succ 2 (i + 1)]; omega
    · rw [pow_succ]; omega

/-- C85 fails for models with branches: the text of a model of `k + 1` layers may have 2^(k+1) - 1 lines, 2^k of them
the line of the input layer -/
theorem C85_repeated (k : Nat) (hlaw : ∀ c, 0 < c → c ≤ 2 * k + 3 → eq (counted c) (zero : T) = false) {w0 : World T} (hpos : 0 < w0.store.heap.next) :
    ∃ m ids w1, ∃ (idx : Nat → Nat) (lines : List (List Char)), branchedCompiled [1] (doubles k) k w0 = .ok (m, ids) w1 ∧ ids.length = k + 1 ∧
      NetM.string m w1 = .ok (modelText lines) w1 ∧ lines.length = 2 ^ (k + 1) - 1 ∧ 2 ^ k ≤ lines.count (inputLine (idx 0) [1]) := by
  have hl : (doubles k : List (BNode T)).length = k := by simp [doubles]
  obtain ⟨m, ids, w1, idx, e, h1, h2⟩ := C85_string_branched (o := k) (doubles_fits (T := T) k) (by rw [hl]) (by rw [hl]; exact hlaw) hpos
  obtain ⟨h3, h4⟩ := doubles_lines (T := T) idx (le_refl k)
  exact ⟨m, ids, w1, idx, _, e, by rw [h1, hl], h2 w1 .none, by show (glines idx [1] (doubles k : List (BNode T)) k).length = _; omega, h4⟩

/-- for integers the hypothesis of `C85_repeated` holds for every `k` -/
example (k : Nat) (c : Nat) (h : 0 < c) (_ : c ≤ 2 * k + 3) : eq (counted c) (zero : Int) = false := counted_int_ne c h

theorem split_on {P : Char → Prop} {x y s t : List Char} {c d : Char} (hx : ∀ a ∈ x, ¬ P a) (hy : ∀ a ∈ y, ¬ P a) (hc : P c) (hd : P d)
    (h : x ++ c :: s = y ++ d :: t) : x = y ∧ c = d ∧ s = t := by
  induction x generalizing y with
  | nil =>
    cases y with
    | nil => simpa using h
    | cons b y =>
      simp only [List.nil_append, List.cons_append, List.cons.injEq] at h
      exact absurd (h.1 ▸ hc) (hy b (by simp))
  | cons a x ih =>
    cases y with
    | nil =>
      simp only [List.nil_append, List.cons_append, List.cons.injEq] at h
      exact absurd (h.1 ▸ hd) (hx a (by simp))
    | cons b y =>
      simp only [List.cons_append, List.cons.injEq] at h
      obtain ⟨h1, h2, h3⟩ := ih (fun a ha => hx a (by simp [ha])) (fun a ha => hy a (by simp [ha])) h.2
      exact ⟨by rw [h.1, h1], h2, h3⟩

/-- a line: no newline except at the end -/
def IsLine (l : List Char) : Prop := ∃ b, l = b ++ ['\n'] ∧ '\n' ∉ b

theorem lines_inj {L L' : List (List Char)} (h1 : ∀ l ∈ L, IsLine l) (h2 : ∀ l ∈ L', IsLine l) (h : L.flatten = L'.flatten) : L = L' := by
  induction L generalizing L' with
  | nil =>
    cases L' with
    | nil => rfl
    | cons l L' =>
      obtain ⟨b, rfl, _⟩ := h2 l (by simp)
      simp at h
  | cons l L ih =>
    obtain ⟨b, rfl, hb⟩ := h1 l (by simp)
    cases L' with
    | nil => simp at h
    | cons l' L' =>
      obtain ⟨b', rfl, hb'⟩ := h2 l' (by simp)
      simp only [List.flatten_cons, List.append_assoc, List.singleton_append] at h
      obtain ⟨e1, _, e2⟩ := split_on (P := (· = '\n')) (fun a ha e => hb (e ▸ ha)) (fun a ha e => hb' (e ▸ ha)) rfl rfl h
      rw [e1, ih (fun l hl => h1 l (by simp [hl])) (fun l hl => h2 l (by simp [hl])) e2]

theorem num_digit (n : Nat) : ∀ c ∈ num n, c.isDigit = true := by
  intro c hc
  have h : num n = Nat.toDigits 10 n := Nat.toList_repr
  rw [h] at hc
  exact Nat.isDigit_of_mem_toDigits (by decide) (by decide) hc

theorem shapeText_line (s : List Nat) : '\n' ∉ Spec.shapeText s := by
  have key : ∀ l : List (List Char), (∀ x ∈ l, '\n' ∉ x) → '\n' ∉ List.intercalate ", ".toList l := by
    intro l hl
    induction l with
    | nil => simp [List.intercalate]
    | cons a l ih =>
      cases l with
      | nil => simpa [List.intercalate] using hl a (by simp)
      | cons b l =>
        have := ih fun x hx => hl x (by simp [hx])
        simp only [List.intercalate, List.intersperse_cons₂, List.flatten_cons, List.mem_append, not_or] at this ⊢
        exact ⟨hl a (by simp), by decide, this⟩
  unfold Spec.shapeText
  simp only [List.mem_append, not_or]
  refine ⟨⟨by decide, key _ ?_⟩, by decide⟩
  simp only [List.mem_map]
  rintro x ⟨n, _, rfl⟩ hc
  exact absurd (num_digit n _ hc) (by decide)

theorem num_line (n : Nat) : '\n' ∉ num n := fun h => absurd (num_digit n _ h) (by decide)

theorem name_line (s : LSpec T) : '\n' ∉ s.name ∧ ':' ∉ s.name := by cases s <;> exact ⟨by simp [LSpec.name], by simp [LSpec.name]⟩

theorem isLine_of {l b : List Char} (h1 : l = b ++ ['\n']) (h2 : '\n' ∉ b) : IsLine l := ⟨b, h1, h2⟩

theorem inputLine_line (i : Nat) (o : List Nat) : IsLine (inputLine i o) := by
  have h : '\n' ∉ "<Layer[".toList ++ num i ++ "] => : O".toList ++ Spec.shapeText o ++ ['>'] := by
    simp only [List.mem_append, not_or]
    exact ⟨⟨⟨⟨by decide, num_line i⟩, by decide⟩, shapeText_line o⟩, by decide⟩
  refine isLine_of ?_ h
  unfold inputLine
  rw [List.append_assoc _ ['>']]; rfl

theorem layerLine_line (i p : Nat) (s : LSpec T) (o : List Nat) : IsLine (layerLine i p s.name o) := by
  have h : '\n' ∉ "<Layer[".toList ++ num i ++ "] (".toList ++ num p ++ ") => ".toList ++ s.name ++ ": O".toList ++ Spec.shapeText o ++ ['>'] := by
    simp only [List.mem_append, not_or]
    exact ⟨⟨⟨⟨⟨⟨⟨⟨by decide, num_line i⟩, by decide⟩, num_line p⟩, by decide⟩, (name_line s).1⟩, by decide⟩, shapeText_line o⟩, by decide⟩
  refine isLine_of ?_ h
  unfold layerLine
  rw [List.append_assoc _ ['>']]; rfl

theorem shapeText_inj {s t : List Nat} {r r' : List Char} (h : Spec.shapeText s ++ r = Spec.shapeText t ++ r') : s = t := by
  rw [← shapeStr_text, ← shapeStr_text] at h
  exact (shapeStr_inj h).1

theorem inputLine_inj {i i' : Nat} {o o' : List Nat} (h : inputLine i o = inputLine i' o') : o = o' := by
  unfold inputLine at h
  simp only [List.append_assoc] at h
  have h1 := List.append_cancel_left h
  obtain ⟨_, _, h2⟩ := split_on (P := fun c => c.isDigit = false) (x := num i) (y := num i') (c := ']') (d := ']')
    (fun a ha => by simp [num_digit i a ha]) (fun a ha => by simp [num_digit i' a ha]) (by decide) (by decide) h1
  exact shapeText_inj (List.append_cancel_left (as := " => : O".toList) h2)

theorem layerLine_inj {i i' p p' : Nat} {s s' : LSpec T} {o o' : List Nat} (h : layerLine i p s.name o = layerLine i' p' s'.name o') :
    s.name = s'.name ∧ o = o' := by
  unfold layerLine at h
  simp only [List.append_assoc] at h
  have h1 := List.append_cancel_left h
  obtain ⟨_, _, h2⟩ := split_on (P := fun c => c.isDigit = false) (x := num i) (y := num i') (c := ']') (d := ']')
    (fun a ha => by simp [num_digit i a ha]) (fun a ha => by simp [num_digit i' a ha]) (by decide) (by decide) h1
  have h3 := List.append_cancel_left (as := " (".toList) h2
  obtain ⟨_, _, h4⟩ := split_on (P := fun c => c.isDigit = false) (x := num p) (y := num p') (c := ')') (d := ')')
    (fun a ha => by simp [num_digit p a ha]) (fun a ha => by simp [num_digit p' a ha]) (by decide) (by decide) h3
  have h5 := List.append_cancel_left (as := " => ".toList) h4
  obtain ⟨h6, _, h7⟩ := split_on (P := (· = ':')) (x := s.name) (y := s'.name) (c := ':') (d := ':')
    (fun a ha e => (name_line s).2 (e ▸ ha)) (fun a ha e => (name_line s').2 (e ▸ ha)) rfl rfl h5
  exact ⟨h6, shapeText_inj (List.append_cancel_left (as := " O".toList) h7)⟩

theorem seqLines_line (idx : Nat → Nat) (shape : List Nat) (ls : List (LSpec T)) : ∀ l ∈ seqLines idx shape ls, IsLine l := by
  intro l hl
  unfold seqLines at hl
  rcases List.mem_cons.1 hl with rfl | hl
  · exact inputLine_line _ _
  · obtain ⟨k, _, rfl⟩ := List.mem_map.1 hl
    exact layerLine_line _ _ _ _

/-- C85: sequential models with the same text have the same number of layers, and their layers have, one by one, the
same names and the same output shapes -/
theorem C85_determines {idx idx' : Nat → Nat} {shape shape' : List Nat} {ls ls' : List (LSpec T)}
    (h : modelText (seqLines idx shape ls) = modelText (seqLines idx' shape' ls')) :
    ls.length = ls'.length ∧ ls.map LSpec.name = ls'.map LSpec.name ∧
      ∀ k ≤ ls.length, outShapes (ls.take k) shape = outShapes (ls'.take k) shape' := by
  unfold modelText at h
  simp only [List.append_assoc] at h
  have e := lines_inj (seqLines_line _ _ _) (seqLines_line _ _ _) (List.append_cancel_right (List.append_cancel_left h))
  have hl : ls.length = ls'.length := by
    have := congrArg List.length e
    rw [seqLines_length, seqLines_length] at this
    omega
  unfold seqLines at e
  obtain ⟨e1, e2⟩ := List.cons.inj e
  have key : ∀ k < ls.length, (ls.getD k .flatten).name = (ls'.getD k .flatten).name ∧
      outShapes (ls.take (k + 1)) shape = outShapes (ls'.take (k + 1)) shape' := fun k hk => by
    have := congrArg (fun l => l[k]?) e2
    simp only [List.getElem?_map, List.getElem?_range hk, List.getElem?_range (hl ▸ hk), Option.map_some, Option.some.injEq] at this
    exact layerLine_inj this
  refine ⟨hl, ?_, fun k hk => ?_⟩
  · refine List.ext_getElem (by simpa using hl) fun k h1 h2 => ?_
    rw [List.length_map] at h1 h2
    have := (key k h1).1
    rw [List.getD_eq_getElem?_getD, List.getD_eq_getElem?_getD, List.getElem?_eq_getElem h1, List.getElem?_eq_getElem h2] at this
    simpa using this
  · cases k with
    | zero => simpa [outShapes] using inputLine_inj e1
    | succ k => exact (key k hk).2

/-- a model of three layers and its text, if the indices count the layers -/
example : String.ofList (modelText (seqLines id [2, 3] [.flatten, .dense 4 (.linear : Activation Int), .softMax])) =
    "<Model => [\n<Layer[0] => : O[2, 3]>\n<Layer[1] (0) => Flatten: O[6]>\n<Layer[2] (1) => Dense: O[4]>\n<Layer[3] (2) => SoftMax: O[4]>\n]>\n" := by
  decide +kernel

/-- ... which fit together -/
example : Fits [.flatten, .dense 4 (.linear : Activation Int), .softMax] [2, 3] := by simp [Fits, LSpec.fits]

end Godeep.Props
