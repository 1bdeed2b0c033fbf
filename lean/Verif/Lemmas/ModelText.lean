import Verif.Model.ModelText
import Verif.Spec.ModelText
import Verif.Lemmas.BranchNet
import Verif.Lemmas.TrainFF
import Mathlib.Data.List.Basic
/-
  The text of a model.
-/
set_option linter.unusedSectionVars false

namespace Godeep
open Spec GoNum

variable {T : Type} [GoNum T]

theorem dec_num (n : Nat) : Text.dec n = num n := by
  have h : num n = Nat.toDigits 10 n := Nat.toList_repr
  rw [h]
  induction n using Nat.strong_induction_on with
  | _ n ih =>
    unfold Text.dec
    have dig : ∀ d, d < 10 → Char.ofNat (48 + d) = Nat.digitChar d := by decide
    split
    · next h => rw [Nat.toDigits_of_lt_base h, dig n h]
    · next h =>
      rw [Nat.toDigits_of_base_le (by omega) (by omega), ih (n / 10) (by omega) Nat.toList_repr, dig _ (by omega)]

theorem writeAll_intercalate {α : Type} (pr : α → List Char) (l : List α) : ∀ i n, n = i + l.length →
    Text.writeAll pr n i l = List.intercalate ", ".toList (l.map pr) := by
  induction l with
  | nil => intro i n _; rfl
  | cons a l ih =>
    intro i n hn
    rw [Text.writeAll, ih (i + 1) n (by simp at hn; omega)]
    cases l with
    | nil =>
      have : ¬ i < n - 1 := by simp at hn; omega
      rw [if_neg this]; simp [List.intercalate]
    | cons c l =>
      have : i < n - 1 := by simp at hn; omega
      rw [if_pos this]; simp [List.intercalate]

theorem shapeStr_text (s : List Nat) : Text.shapeStr s = Spec.shapeText s := by
  unfold Text.shapeStr Spec.shapeText
  rw [writeAll_intercalate _ s 0 _ (by omega), show Text.dec = num from funext dec_num]
  rfl

theorem shapeText_ok {w : World T} {t : Option Nat} {o : Nat} {M : Mat} (h : t = some o) (r : Ready w o M) :
    LayerM.shapeText t w = .ok (Spec.shapeText M.shape) w := by
  subst h
  show Out.ok (Text.shapeStr (w.store.nodes o).mat.shape) w = _
  rw [r.mat, shapeStr_text]

theorem push_input {w : World T} {f l o : Nat} {M : Mat} (hk : (w.layers l).kind = .input) (hp : (w.layers l).pre = none)
    (ho : (w.layers l).output = some o) (r : Ready w o M) :
    LayerM.pushToString (f + 1) l w = .ok (inputLine (w.layers l).index M.shape) w := by
  show (match (w.layers l).kind with
    | .concat l1 l2 _ => _
    | _ => _ : Run T (List Char)) w = _
  rw [hk]
  show (match (w.layers l).pre with
    | some p => _
    | none => _ : Run T (List Char)) w = _
  rw [hp]
  show (LayerM.shapeText (w.layers l).output w).bind _ = _
  rw [shapeText_ok ho r]
  show Out.ok ("<Layer[".toList ++ Text.dec (w.layers l).index ++ "] => ".toList ++ LayerM.typeName LKind.input ++ ": O".toList ++
    Spec.shapeText M.shape ++ ">\n".toList) w = _
  unfold inputLine
  rw [dec_num]
  simp [LayerM.typeName]

theorem name_kind (s : LSpec T) : LayerM.typeName s.kind = s.name := by cases s <;> rfl

theorem push_layer {w : World T} {f l p o : Nat} {M : Mat} {s : LSpec T} {t : List Char} (hk : (w.layers l).kind = s.kind)
    (hp : (w.layers l).pre = some p) (ho : (w.layers l).output = some o) (r : Ready w o M)
    (ht : LayerM.pushToString f p w = .ok t w) :
    LayerM.pushToString (f + 1) l w = .ok (t ++ layerLine (w.layers l).index (w.layers p).index s.name M.shape) w := by
  have e : LayerM.pushToString (f + 1) l w = (match (w.layers l).pre with
      | some p => do
        let t ← LayerM.pushToString f p
        let y ← Run.layer p
        let o ← LayerM.shapeText (w.layers l).output
        return t ++ ("<Layer[".toList ++ Text.dec (w.layers l).index ++ "] (".toList ++ Text.dec y.index ++ ") => ".toList ++ LayerM.typeName (w.layers l).kind ++
          ": O".toList ++ o ++ ">\n".toList)
      | none => do
        let o ← LayerM.shapeText (w.layers l).output
        return "<Layer[".toList ++ Text.dec (w.layers l).index ++ "] => ".toList ++ LayerM.typeName (w.layers l).kind ++ ": O".toList ++ o ++ ">\n".toList : Run T (List Char)) w := by
    show (match (w.layers l).kind with
      | .concat l1 l2 _ => _
      | _ => _ : Run T (List Char)) w = _
    rw [hk]
    cases s <;> rfl
  rw [e, hp]
  show (LayerM.pushToString f p w).bind _ = _
  rw [ht]
  show (LayerM.shapeText (w.layers l).output w).bind _ = _
  rw [shapeText_ok ho r]
  show Out.ok _ w = _
  rw [hk, name_kind]
  unfold layerLine
  simp only [dec_num]

theorem push_concat {w : World T} {f l i j d o : Nat} {M : Mat} {t1 t2 : List Char} (hk : (w.layers l).kind = .concat i j d)
    (ho : (w.layers l).output = some o) (r : Ready w o M) (hi : (w.layers l).input = (w.layers l).output)
    (h1 : LayerM.pushToString f i w = .ok t1 w) (h2 : LayerM.pushToString f j w = .ok t2 w) :
    LayerM.pushToString (f + 1) l w = .ok (t1 ++ t2 ++ concatLine (w.layers l).index (w.layers i).index (w.layers j).index M.shape) w := by
  show (match (w.layers l).kind with
    | .concat l1 l2 _ => _
    | _ => _ : Run T (List Char)) w = _
  rw [hk]
  show (LayerM.pushToString f i w).bind _ = _
  rw [h1]
  show (LayerM.pushToString f j w).bind _ = _
  rw [h2]
  show (LayerM.shapeText (w.layers l).input w).bind _ = _
  rw [shapeText_ok (hi.trans ho) r]
  show (LayerM.shapeText (w.layers l).output w).bind _ = _
  rw [shapeText_ok ho r]
  show Out.ok (t1 ++ t2 ++ ("<Layer[".toList ++ Text.dec (w.layers l).index ++ "] (".toList ++ Text.dec (w.layers i).index ++ ", ".toList ++
    Text.dec (w.layers j).index ++ ") => ".toList ++ "Concat".toList ++ ": I".toList ++ Spec.shapeText M.shape ++ " O".toList ++ Spec.shapeText M.shape ++ ">\n".toList)) w = _
  unfold concatLine
  simp only [dec_num]
  simp

theorem string_ok {w : World T} {m l : Nat} {t : List Char} (hl : (w.nets m).last = some l)
    (h : LayerM.pushToString (w.layerNext + 1) l w = .ok t w) :
    NetM.string m w = .ok ("<Model => [\n".toList ++ t ++ "]>\n".toList) w := by
  show (Run.deref (w.nets m).last w).bind _ = _
  rw [hl]
  show (LayerM.pushToString (w.layerNext + 1) l w).bind _ = _
  rw [h]; rfl

/-- what the text of a sequential model is made from -/
structure Shown (shape : List Nat) (ls : List (LSpec T)) (b : Nat) (w : World T) : Prop where
  kind : (w.layers b).kind = .input
  pre : (w.layers b).pre = none
  lay : ∀ k s, ls[k]? = some s → (w.layers (b + 1 + k)).kind = s.kind ∧ (w.layers (b + 1 + k)).pre = some (b + k)
  out : ∀ k ≤ ls.length, ∃ o M, (w.layers (b + k)).output = some o ∧ Ready w o M ∧ M.shape = outShapes (ls.take k) shape

theorem Shown.push {shape : List Nat} {ls : List (LSpec T)} {b : Nat} {w : World T} (S : Shown shape ls b w) {k : Nat} (hk : k ≤ ls.length)
    {f : Nat} (hf : k < f) : LayerM.pushToString f (b + k) w =
      .ok (((seqLines (fun k => (w.layers (b + k)).index) shape ls).take (k + 1)).flatten) w := by
  induction k generalizing f with
  | zero =>
    obtain ⟨o, M, h1, h2, h3⟩ := S.out 0 (by omega)
    obtain ⟨f, rfl⟩ : ∃ g, f = g + 1 := ⟨f - 1, by omega⟩
    replace h1 : (w.layers b).output = some o := h1
    show LayerM.pushToString (f + 1) b w = _
    rw [push_input S.kind S.pre h1 h2, h3]
    simp [seqLines, outShapes]
  | succ k ih =>
    obtain ⟨o, M, h1, h2, h3⟩ := S.out (k + 1) hk
    obtain ⟨f, rfl⟩ : ∃ g, f = g + 1 := ⟨f - 1, by omega⟩
    have hs : ls[k]? = some ls[k] := List.getElem?_eq_getElem hk
    obtain ⟨hk1, hp1⟩ := S.lay k _ hs
    rw [show b + 1 + k = b + (k + 1) by omega] at hk1 hp1
    rw [push_layer hk1 hp1 h1 h2 (ih (by omega) (by omega)), h3]
    rw [List.take_add_one (i := k + 1), List.flatten_append]
    congr 2
    simp only [seqLines, List.getElem?_cons_succ, List.getElem?_map]
    rw [List.getElem?_range hk]
    simp [List.getD_eq_getElem?_getD, hs]

theorem Shown.string {shape : List Nat} {ls : List (LSpec T)} {b m : Nat} {w : World T} (S : Shown shape ls b w)
    (hl : (w.nets m).last = some (b + ls.length)) (hn : b + ls.length < w.layerNext) :
    NetM.string m w = .ok (modelText (seqLines (fun k => (w.layers (b + k)).index) shape ls)) w := by
  rw [string_ok hl (S.push (le_refl _) (by omega))]
  unfold modelText
  rw [List.take_of_length_le (by simp [seqLines])]

/-- every layer of a chain has an output of the right shape -/
theorem trace_outputs {shape : List Nat} {b inp0 : Nat} {m0 : Mat} {ls : List (LSpec T)} {ops : List (Op T)} {K : Ptr → T → Prop} {w w' : World T}
    (tr : FFTrace b ls ops K w w') (hpos : 0 < w.store.heap.next) (hin : (w.layers b).input = some inp0) (rin : Ready w inp0 m0)
    (hs : m0.shape = shape) :
    ∀ k ≤ ls.length, ∃ o M, (w'.layers (b + k)).output = some o ∧ Ready w' o M ∧ M.shape = outShapes (ls.take k) shape := by
  induction tr with
  | @nil w w' e =>
    intro k hk
    obtain rfl : k = 0 := by simpa using hk
    obtain ⟨dif, dM, g, el, _⟩ := wp_ok (inputFF_ok (w := updL b (fun x => { x with ff := true }) w) (b := b) (inp0 := inp0) (m0 := m0) hpos
      (by rw [updL_same]; exact hin) (rin.grow (grow_updL (L := (· = b)) (C := fun _ => False) rfl _ w))) e
    refine ⟨inp0, m0, ?_, (rin.grow (grow_updL (L := (· = b)) (C := fun _ => False) rfl _ w)).grow g, hs⟩
    show (w'.layers b).output = _
    rw [el]
  | @snoc ls s o1 o2 K1 K2 w w1 w1' w2 fuel inp out inM outM tr e1 e2 P So F More ih =>
    intro k hk
    have hb : b ≠ b + 1 + ls.length := by omega
    have g0 := grow_updL (L := (· = b + 1 + ls.length)) (C := fun _ => False) rfl (fun x => { x with ff := true }) w
    have IH := ih hpos (by rw [updL_ne _ _ hb]; exact hin) (rin.grow g0)
    have g1 : Grow (· = b + 1 + ls.length) (fun _ => False) [] w1 w1' := by
      rw [e1]; exact grow_updL (L := (· = b + 1 + ls.length)) rfl _ w1
    rcases Nat.lt_or_ge ls.length k with h | h
    · obtain rfl : k = ls.length + 1 := by simp at hk; omega
      obtain ⟨o, M, h1, h2, h3⟩ := IH ls.length (le_refl _)
      have hi := P.input
      rw [e1, updL_same] at hi
      replace hi : (w1.layers (b + ls.length)).output = some inp := hi
      rw [h1] at hi
      cases hi
      have hM : M = inM := by rw [← (h2.grow g1).mat, P.rin.mat]
      refine ⟨out, outM, ?_, F.ready, ?_⟩
      · rw [show b + (ls.length + 1) = b + 1 + ls.length by omega]; exact F.output
      · rw [F.shape, ← hM, h3, List.take_of_length_le (le_refl _), List.take_of_length_le (by simp), outShapes_append]
    · obtain ⟨o, M, h1, h2, h3⟩ := IH k h
      refine ⟨o, M, ?_, (h2.grow g1).grow F.grow, ?_⟩
      · rw [F.grow.layers _ (by omega), g1.layers _ (by omega)]; exact h1
      · rw [h3, List.take_append_of_le_length h]

/-- ... also after `Compile` -/
theorem CompileRun.shown {shape : List Nat} {ls : List (LSpec T)} {m b inp0 : Nat} {m0 : Mat} {ops : List (Op T)} {out : Nat} {outM : Mat}
    {K : Ptr → T → Prop} {w w1 w2 w' : World T} (R : CompileRun shape ls m b inp0 m0 ops out outM K w w1 w2 w') : Shown shape ls b w' := by
  have x2 : Ext w2 w' := by
    have := R.fin.ext
    exact ⟨this.next, this.nodeNext, this.kind, this.frozen⟩
  refine ⟨?_, ?_, fun k s h => ?_, fun k hk => ?_⟩
  · rw [R.layers, (R.all.same b).1]; exact R.seq.kind
  · rw [R.layers, (R.all.same b).2.1]; exact R.seq.pre
  · have L := R.seq.lay k s h
    rw [R.layers, (R.all.same _).1, (R.all.same _).2.1]
    exact ⟨L.kind, by rw [L.pre]; congr 1; omega⟩
  · obtain ⟨o, M, h1, h2, h3⟩ := trace_outputs R.all.trace R.seq.pos R.seq.input R.seq.rin R.seq.shape k hk
    exact ⟨o, M, by rw [R.layers]; exact h1, h2.ext x2, h3⟩

theorem Shown.later {shape : List Nat} {ls : List (LSpec T)} {b : Nat} {w w' : World T} (S : Shown shape ls b w) (x : Ext w w')
    (h : ∀ k ≤ ls.length, (w'.layers (b + k)).fwd = (w.layers (b + k)).fwd) : Shown shape ls b w' := by
  refine ⟨?_, ?_, fun k s hs => ?_, fun k hk => ?_⟩
  · exact (Layer.fwd_eq (h 0 (by omega))).1.trans S.kind
  · exact (Layer.fwd_eq (h 0 (by omega))).2.1.trans S.pre
  · have hk := (List.getElem?_eq_some_iff.1 hs).1
    have := Layer.fwd_eq (h (k + 1) hk)
    rw [show b + (k + 1) = b + 1 + k by omega] at this
    rw [this.1, this.2.1]; exact S.lay k s hs
  · obtain ⟨o, M, h1, h2, h3⟩ := S.out k hk
    exact ⟨o, M, by rw [(Layer.fwd_eq (h k hk)).2.2.2.2.2.2.1]; exact h1, h2.ext x, h3⟩

/-! ### Models with branches -/

/-- the lines of layer number `k` -/
def glines (idx : Nat → Nat) (shape : List Nat) (ns : List (BNode T)) (k : Nat) : List (List Char) := (graphLines idx shape ns).getD k []

theorem glines_zero (idx : Nat → Nat) (shape : List Nat) (ns : List (BNode T)) : glines idx shape ns 0 = [inputLine (idx 0) shape] := by
  obtain ⟨rest, e, _⟩ := scan_prefix (fun (n : BNode T) ts => n.lines idx (fun i => (graphShapes ns shape).getD i []) (fun i => ts.getD i []) (ts.length - 1))
    ns [[inputLine (idx 0) shape]]
  unfold glines graphLines
  rw [e]; rfl

theorem lines_congr {idx : Nat → Nat} {s : Nat → List Nat} {k : Nat} {n : BNode T} {v v' : Nat → List (List Char)} (h : ∀ p ∈ n.reads, v p = v' p) :
    n.lines idx s v k = n.lines idx s v' k := by
  cases n with
  | layer s p => simp only [BNode.lines, h p (by simp [BNode.reads])]
  | concat i j d => simp only [BNode.lines, h i (by simp [BNode.reads]), h j (by simp [BNode.reads])]

theorem glines_succ {idx : Nat → Nat} {shape : List Nat} {ns : List (BNode T)} {k : Nat} {n : BNode T} (h : ns[k]? = some n)
    (hr : ∀ p ∈ n.reads, p ≤ k) : glines idx shape ns (k + 1) = n.lines idx (gshape ns shape) (glines idx shape ns) k := by
  obtain ⟨V, rest, e, hV⟩ := scan_get (fun (n : BNode T) ts => n.lines idx (fun i => (graphShapes ns shape).getD i []) (fun i => ts.getD i []) (ts.length - 1))
    [inputLine (idx 0) shape] h
  have e' : graphLines idx shape ns = V ++ n.lines idx (gshape ns shape) (fun i => V.getD i []) k :: rest := by
    have hk : V.length - 1 = k := by omega
    rw [← hk]; exact e
  unfold glines
  rw [e', getD_next hV]
  refine lines_congr fun p hp => ?_
  rw [getD_prefix _ (by have := hr p hp; omega)]

/-- what the text of a model with branches is made from -/
structure GShown (shape : List Nat) (ns : List (BNode T)) (o b : Nat) (w : World T) : Prop where
  le : ∀ k, Needed ns o k → k ≤ ns.length
  kind : (w.layers b).kind = .input
  pre : (w.layers b).pre = none
  lay : ∀ k n, Needed ns o (k + 1) → ns[k]? = some n → (w.layers (b + (k + 1))).kind = n.kind b ∧ (w.layers (b + (k + 1))).pre = n.pre b
  out : ∀ k, Needed ns o k → ∃ t M, (w.layers (b + k)).output = some t ∧ Ready w t M ∧ M.shape = gshape ns shape k
  cin : ∀ k i j d, Needed ns o k → (w.layers (b + k)).kind = .concat i j d → (w.layers (b + k)).input = (w.layers (b + k)).output

theorem GShown.push {shape : List Nat} {ns : List (BNode T)} {o b : Nat} {w : World T} (S : GShown shape ns o b w)
    (hr : ∀ (k : Nat) (n : BNode T), ns[k]? = some n → ∀ p ∈ n.reads, p ≤ k) (k : Nat) (hk : Needed ns o k)
    {f : Nat} (hf : k < f) : LayerM.pushToString f (b + k) w = .ok (glines (fun k => (w.layers (b + k)).index) shape ns k).flatten w := by
  induction k using Nat.strong_induction_on generalizing f with
  | _ k ih =>
    obtain ⟨t, M, h1, h2, h3⟩ := S.out k hk
    obtain ⟨f, rfl⟩ : ∃ g, f = g + 1 := ⟨f - 1, by omega⟩
    cases k with
    | zero =>
      replace h1 : (w.layers b).output = some t := h1
      show LayerM.pushToString (f + 1) b w = _
      rw [push_input S.kind S.pre h1 h2, h3, glines_zero, gshape_zero]
      simp
    | succ k =>
      obtain ⟨n, hn⟩ : ∃ n, ns[k]? = some n := ⟨_, List.getElem?_eq_getElem (S.le _ hk)⟩
      obtain ⟨hk1, hp1⟩ := S.lay k n hk hn
      rw [glines_succ hn (hr k n hn)]
      cases n with
      | layer s p =>
        have hpk := hr k _ hn p (by simp [BNode.reads])
        rw [push_layer hk1 hp1 h1 h2 (ih p (by omega) (.read hk hn (by simp [BNode.reads])) (by omega)), h3]
        simp [BNode.lines]
      | concat i j d =>
        have hik := hr k _ hn i (by simp [BNode.reads])
        have hjk := hr k _ hn j (by simp [BNode.reads])
        rw [push_concat hk1 h1 h2 (S.cin _ _ _ _ hk hk1) (ih i (by omega) (.read hk hn (by simp [BNode.reads])) (by omega))
          (ih j (by omega) (.read hk hn (by simp [BNode.reads])) (by omega)), h3]
        simp [BNode.lines]

theorem GRun.shown {shape : List Nat} {ns : List (BNode T)} {o m b inp0 : Nat} {m0 : Mat} {R V : Nat → Prop} {ops : List (Op T)} {out : Nat}
    {K : Ptr → T → Prop} {w w1 w2 w' : World T} (G : GRun shape ns o m b inp0 m0 R V ops out K w w1 w2 w')
    (hr : ∀ (k : Nat) (n : BNode T), ns[k]? = some n → ∀ p ∈ n.reads, p ≤ k) : GShown shape ns o b w' := by
  have A := G.all
  have x2 : Ext w2 w' := by
    have := G.fin.ext
    exact ⟨this.next, this.nodeNext, this.kind, this.frozen⟩
  have nd : ∀ {k}, Needed ns o k → V k := fun h => A.needed G.vo h
  have z : V 0 ∨ ¬ V 0 := em _
  have h0 : (w2.layers b).kind = (w1.layers b).kind ∧ (w2.layers b).pre = (w1.layers b).pre := by
    rcases z with h | h
    · exact (A.seen 0 h).2
    · obtain ⟨f, e⟩ := A.rest 0 (by omega) h
      replace e : w2.layers b = { w1.layers b with ff := f } := e
      rw [e]; exact ⟨rfl, rfl⟩
  refine ⟨fun k hk => A.sub k (nd hk), ?_, ?_, fun k n hk hn => ?_, fun k hk => ?_, fun k i j d hk => ?_⟩
  · rw [G.layers, h0.1]; exact G.gat.kind
  · rw [G.layers, h0.2]; exact G.gat.pre
  · have N := G.gat.toGBase.node hn
    rw [G.layers, (A.seen _ (nd hk)).2.1, (A.seen _ (nd hk)).2.2]
    exact ⟨N.kind, N.pre⟩
  · obtain ⟨t, h1, h2⟩ := A.out k (nd hk)
    exact ⟨t, _, by rw [G.layers]; exact h1, h2.ext x2, A.oshape k (nd hk)⟩
  · rw [G.layers]; exact A.cin k i j d (nd hk)

theorem GShown.later {shape : List Nat} {ns : List (BNode T)} {o b : Nat} {w w' : World T} (S : GShown shape ns o b w) (x : Ext w w')
    (h : ∀ k ≤ ns.length, w'.layers (b + k) = w.layers (b + k)) : GShown shape ns o b w' := by
  refine ⟨S.le, ?_, ?_, fun k n hk hn => ?_, fun k hk => ?_, fun k i j d hk => ?_⟩
  · rw [show w'.layers b = w.layers b from h 0 (by omega)]; exact S.kind
  · rw [show w'.layers b = w.layers b from h 0 (by omega)]; exact S.pre
  · rw [h _ (S.le _ hk)]; exact S.lay k n hk hn
  · obtain ⟨t, M, h1, h2, h3⟩ := S.out k hk
    exact ⟨t, M, by rw [h _ (S.le _ hk)]; exact h1, h2.ext x, h3⟩
  · rw [h _ (S.le _ hk)]; exact S.cin k i j d hk

/-- a compiled model with branches, with what its text is made from -/
theorem branched_shown (hg : ∀ s : LSpec T, FFGood s) {shape : List Nat} {ns : List (BNode T)} {o : Nat} {w0 : World T}
    (hlaw : ∀ c, 0 < c → c ≤ 2 * ns.length + 3 → eq (counted c) (zero : T) = false)
    (hpos : 0 < w0.store.heap.next) (hfit : GraphFits ns shape) (ho : o ≤ ns.length) :
    wp True (branchedCompiled shape ns o) (fun r w1 => GShown shape ns o w0.layerNext w1 ∧ (w1.nets r.1).last = some (w0.layerNext + o)) w0 := by
  unfold branchedCompiled
  refine wp_bind (wp_mono (branched_ok shape ns o hpos (fun k n h => (hfit k n h).1) ho) ?_)
  rintro _ ws ⟨rfl, A, ⟨inp0, m0, S, low, own⟩, hnet, _⟩
  refine wp_bind (wp_mono (compile_graph (o := o) hlaw S (by rw [hnet]; exact ⟨rfl, rfl⟩) hg hfit ho) ?_)
  rintro _ w1 ⟨R, V, ops, out, K, wa, wb, G⟩
  refine wp_pure ⟨G.shown fun k n h => (hfit k n h).1, ?_⟩
  obtain ⟨t, e⟩ := G.net
  show (w1.nets w0.netNext).last = _
  rw [e, hnet]

end Godeep
