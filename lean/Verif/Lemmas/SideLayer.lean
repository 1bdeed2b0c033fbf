import Verif.Lemmas.SidePrim
/-
  The layers stay in the part: building, feed-forward, derivatives.
-/
set_option linter.unusedSectionVars false

namespace Godeep
open Spec GoNum

variable {T : Type} [GoNum T] {α β : Type}

namespace Side

variable {b b1 b2 : Bool} {g g' : Sd} {w w' : World T}

theorem all_nil {P : α → Prop} : ∀ q ∈ ([] : List α), P q := fun q h => by cases h

theorem all_cons {P : α → Prop} {a : α} {l : List α} (h : P a) (hl : ∀ q ∈ l, P q) : ∀ q ∈ a :: l, P q := fun q hq => by
  rcases List.mem_cons.1 hq with rfl | hq
  · exact h
  · exact hl q hq

theorem all_app {P : α → Prop} {l m : List α} (hl : ∀ q ∈ l, P q) (hm : ∀ q ∈ m, P q) : ∀ q ∈ l ++ m, P q := fun q hq =>
  (List.mem_append.1 hq).elim (hl q) (hm q)

theorem all_flatten {P : α → Prop} {l : List (List α)} (hl : ∀ m ∈ l, ∀ q ∈ m, P q) : ∀ q ∈ l.flatten, P q := fun q hq => by
  obtain ⟨m, hm, hq⟩ := List.mem_flatten.1 hq
  exact hl m hm q hq

theorem opIn_asg {p : Nat} {r : Rhs T} (h1 : g.cell p) (h2 : ∀ q ∈ r.reads, g.cell q) : OpIn g (.asg p r) := ⟨h1, h2⟩

theorem cells_le {l : List Nat} (h : Le g g') (hl : ∀ q ∈ l, g.cell q) : ∀ q ∈ l, g'.cell q := fun q hq => h.cell q (hl q hq)

theorem cells2_le {l : List (List Nat)} (h : Le g g') (hl : ∀ m ∈ l, ∀ q ∈ m, g.cell q) : ∀ m ∈ l, ∀ q ∈ m, g'.cell q := fun m hm q hq => h.cell q (hl m hm q hq)

theorem cells3_le {l : List (List (List Nat))} (h : Le g g') (hl : ∀ k ∈ l, ∀ m ∈ k, ∀ q ∈ m, g.cell q) : ∀ k ∈ l, ∀ m ∈ k, ∀ q ∈ m, g'.cell q :=
  fun k hk m hm q hq => h.cell q (hl k hk m hm q hq)

theorem Cl.derefNode {o : Option Nat} (h : Opt g.node o) : Cl b g (Run.deref o : Run T Nat) fun g' n => g'.node n := Cl.deref h

theorem Cl.derefLayer {o : Option Nat} (h : Opt g.layer o) : Cl b g (Run.deref o : Run T Nat) fun g' n => g'.layer n := Cl.deref h

/-- membership in the part -/
syntax "sd" : tactic
macro_rules | `(tactic| sd) => `(tactic| first
  | with_reducible assumption
  | with_reducible exact True.intro
  | with_reducible exact opt_none
  | ((with_reducible refine Le.node (by assumption) _ ?_); sd)
  | ((with_reducible refine Le.cell (by assumption) _ ?_); sd)
  | ((with_reducible refine Le.layer (by assumption) _ ?_); sd)
  | ((with_reducible refine Le.net (by assumption) _ ?_); sd)
  | ((with_reducible refine LayerIn.le ?_ (by assumption)); sd)
  | ((with_reducible refine NetIn.le ?_ (by assumption)); sd)
  | ((with_reducible refine opt_some ?_); sd)
  | ((with_reducible refine LayerIn.pre (x := _) ?_); sd)
  | ((with_reducible refine LayerIn.weights (x := _) ?_); sd)
  | ((with_reducible refine LayerIn.bias (x := _) ?_); sd)
  | ((with_reducible refine LayerIn.nWeights (x := _) ?_); sd)
  | ((with_reducible refine LayerIn.mWeights (x := _) ?_); sd)
  | ((with_reducible refine LayerIn.nBias (x := _) ?_); sd)
  | ((with_reducible refine LayerIn.mBias (x := _) ?_); sd)
  | ((with_reducible refine LayerIn.input (x := _) ?_); sd)
  | ((with_reducible refine LayerIn.neta (x := _) ?_); sd)
  | ((with_reducible refine LayerIn.output (x := _) ?_); sd)
  | ((with_reducible refine LayerIn.dif (x := _) ?_); sd)
  | ((with_reducible refine LayerIn.der (x := _) ?_); sd)
  | ((with_reducible refine LayerIn.ref (x := _) ?_); sd)
  | ((with_reducible refine LayerIn.maxScalar (x := _) ?_); sd)
  | ((with_reducible refine NetIn.first (x := _) ?_); sd)
  | ((with_reducible refine NetIn.last (x := _) ?_); sd)
  | ((with_reducible refine NetIn.input (x := _) ?_); sd)
  | ((with_reducible refine NetIn.output (x := _) ?_); sd)
  | ((with_reducible refine NetIn.target (x := _) ?_); sd)
  | ((with_reducible refine NetIn.alpha (x := _) ?_); sd)
  | ((with_reducible refine NetIn.momentum (x := _) ?_); sd)
  | ((with_reducible refine NetIn.loss (x := _) ?_); sd)
  | ((with_reducible refine NetIn.ff (x := _) ?_); sd)
  | ((with_reducible refine NetIn.bp (x := _) ?_); sd)
  | ((with_reducible refine NetIn.calDif (x := _) ?_); sd)
  | ((with_reducible refine NetIn.resetFit (x := _) ?_); sd)
  | ((with_reducible refine NetIn.reset (x := _) ?_); sd)
  | (refine LayerIn.pre (x := _) ?_ _ (by assumption); sd)
  | (refine NetIn.first (x := _) ?_ _ (by assumption); sd)
  | (refine NetIn.last (x := _) ?_ _ (by assumption); sd)
  | ((with_reducible refine Opt.mono ?_ (Le.node (by assumption))); sd)
  | ((with_reducible refine Opt.mono ?_ (Le.layer (by assumption))); sd)
  | ((with_reducible refine OpsIn.le ?_ (by assumption)); sd)
  | ((with_reducible refine opIn_asg ?_ ?_) <;> sd)
  | ((dsimp only [Rhs.reads, Red.rhs]); sd)
  | exact all_nil
  | (refine all_cons ?_ ?_ <;> sd)
  | (refine all_app ?_ ?_ <;> sd)
  | (refine all_flatten ?_; sd)
  | (refine cells_le (by assumption) ?_; sd)
  | (refine cells2_le (by assumption) ?_; sd)
  | (refine cells3_le (by assumption) ?_; sd))

/-- an assignment to fields of a layer -/
macro "md" : tactic => `(tactic| (intro y hy; constructor <;> dsimp only <;> first
  | with_reducible exact hy.kind
  | with_reducible exact hy.pre
  | with_reducible exact hy.weights
  | with_reducible exact hy.bias
  | with_reducible exact hy.nWeights
  | with_reducible exact hy.mWeights
  | with_reducible exact hy.nBias
  | with_reducible exact hy.mBias
  | with_reducible exact hy.input
  | with_reducible exact hy.neta
  | with_reducible exact hy.output
  | with_reducible exact hy.dif
  | with_reducible exact hy.der
  | with_reducible exact hy.ref
  | with_reducible exact hy.maxScalar
  | sd))

/-- an assignment to fields of a model -/
macro "mn" : tactic => `(tactic| (intro y hy; constructor <;> dsimp only <;> first
  | with_reducible exact hy.first
  | with_reducible exact hy.last
  | with_reducible exact hy.input
  | with_reducible exact hy.output
  | with_reducible exact hy.target
  | with_reducible exact hy.alpha
  | with_reducible exact hy.momentum
  | with_reducible exact hy.loss
  | with_reducible exact hy.ff
  | with_reducible exact hy.bp
  | with_reducible exact hy.calDif
  | with_reducible exact hy.resetFit
  | with_reducible exact hy.reset
  | (intro l hl; cases hl; sd)
  | sd))

macro "st1" : tactic => `(tactic| first
  | ((with_reducible refine Cl.pure _ ?_); (· sd))
  | (with_reducible refine Cl.abort)
  | (with_reducible refine Cl.fail _)
  | ((with_reducible refine Cl.push ?_); (· sd))
  | ((with_reducible refine Cl.buildGraph ?_); (· sd))
  | ((with_reducible refine Cl.transfer ?_ ?_); (· sd); (· sd))
  | ((with_reducible refine Cl.fill ?_ ?_); (· sd); (· sd))
  | ((with_reducible refine Cl.modify ?_ ?_); (· sd); (· md))
  | ((with_reducible refine Cl.emit ?_); (· sd))
  | ((with_reducible refine Cl.operand ?_ _); (· sd))
  | (with_reducible refine Cl.scalar _)
  | (with_reducible refine Cl.zeros _)
  | ((with_reducible refine Cl.lazy ?_ ?_); (· sd); (· sd))
  | ((with_reducible refine Cl.bind (Cl.operand ?_ _) fun _ _ _ _ => ?_); (· sd))
  | ((with_reducible refine Cl.bind (Cl.operandAt ?_ _) fun _ _ _ _ => ?_); (· sd))
  | ((with_reducible refine Cl.bind (Cl.push ?_) fun _ _ _ _ => ?_); (· sd))
  | ((with_reducible refine Cl.bind (Cl.emit ?_) fun _ _ _ _ => ?_); (· sd))
  | (with_reducible refine Cl.bind (Cl.scalar _) fun _ _ _ _ => ?_)
  | ((with_reducible refine Cl.bind (Cl.layer ?_) fun _ _ _ _ => ?_); (· sd))
  | ((with_reducible refine Cl.bind (Cl.derefNode ?_) fun _ _ _ _ => ?_); (· sd))
  | ((with_reducible refine Cl.bind (Cl.derefLayer ?_) fun _ _ _ _ => ?_); (· sd))
  | ((with_reducible refine Cl.bind (Cl.mat ?_) fun _ _ _ _ => ?_); (· sd))
  | (with_reducible refine Cl.bind (Cl.value _) fun _ _ _ _ => ?_)
  | (with_reducible refine Cl.bind (Cl.zeros _) fun _ _ _ _ => ?_)
  | (with_reducible refine Cl.bind (Cl.normRand _) fun _ _ _ _ => ?_)
  | ((with_reducible refine Cl.bind (Cl.lazy ?_ ?_) fun _ _ _ _ => ?_); (· sd); (· sd))
  | ((with_reducible refine Cl.bind (Cl.reshape ?_ _) fun _ _ _ _ => ?_); (· sd))
  | ((with_reducible refine Cl.bind (Cl.flatten ?_) fun _ _ _ _ => ?_); (· sd))
  | ((with_reducible refine Cl.bind (Cl.buildGraph ?_) fun _ _ _ _ => ?_); (· sd))
  | ((with_reducible refine Cl.bind (Cl.transfer ?_ ?_) fun _ _ _ _ => ?_); (· sd); (· sd))
  | ((with_reducible refine Cl.bind (Cl.modify ?_ ?_) fun _ _ _ _ => ?_); (· sd); (· md))
  | with_reducible refine Cl.ite (fun _ => ?_) (fun _ => ?_)
  | with_reducible refine Cl.each fun _ _ _ _ => ?_
  | with_reducible refine Cl.collect (P := fun g p => g.cell p) (fun _ _ _ l h => l.cell _ h) fun _ _ _ _ => ?_
  | with_reducible refine Cl.collect (P := fun g l => ∀ p ∈ l, g.cell p) (fun _ _ _ l h => cells_le l h) fun _ _ _ _ => ?_
  | with_reducible refine Cl.collect (P := fun g l => ∀ m ∈ l, ∀ p ∈ m, g.cell p) (fun _ _ _ l h => cells2_le l h) fun _ _ _ _ => ?_
  | with_reducible refine Cl.bind (Cl.lift (P := fun _ _ => True) _ fun _ _ => trivial) fun _ _ _ _ => ?_
  | with_reducible refine Cl.bind (Q := fun _ _ => True) (Cl.each fun _ _ _ _ => ?_) fun _ _ _ _ => ?_
  | with_reducible refine Cl.bind (Cl.collect (P := fun g p => g.cell p) (fun _ _ _ l h => l.cell _ h) fun _ _ _ _ => ?_) fun _ _ _ _ => ?_
  | with_reducible refine Cl.bind (Cl.collect (P := fun g l => ∀ p ∈ l, g.cell p) (fun _ _ _ l h => cells_le l h) fun _ _ _ _ => ?_) fun _ _ _ _ => ?_
  | with_reducible refine Cl.bind (Cl.collect (P := fun g l => ∀ m ∈ l, ∀ p ∈ m, g.cell p) (fun _ _ _ l h => cells2_le l h) fun _ _ _ _ => ?_) fun _ _ _ _ => ?_)

macro "st" : tactic => `(tactic| ((try dsimp only); repeat' st1))

/-! ### constructors -/

/-- a new layer object -/
theorem blank_in (h0 : g.cell 0) {k : LKind T} (hk : KindIn g k) : LayerIn g (LayerM.blank k) := by
  constructor <;> first | exact hk | exact opt_none | exact h0

theorem In.blank (hi : In b g w) {k : LKind T} (hk : KindIn g k) : LayerIn g (LayerM.blank k) := blank_in hi.zero hk

/-- nil is in the part -/
theorem Cl.nil {a : Run T α} {R : Sd → α → Prop} (h : g.cell 0 → Cl2 b1 b2 g a R) : Cl2 b1 b2 g a R := fun w hi => h hi.zero w hi

/-! ### building -/

theorem cl_getRef {l : Nat} (hl : g.layer l) : Cl b g (LayerM.getRef l : Run T Nat) fun g' p => g'.cell p := by
  unfold LayerM.getRef
  st

theorem cl_addRef {l : Nat} (hl : g.layer l) (v : T) : Cl b g (LayerM.addRef l v) fun _ _ => True := by
  unfold LayerM.addRef
  refine Cl.bind (cl_getRef hl) fun _ _ _ _ => ?_
  refine Cl.bind (Cl.value _) fun _ _ _ _ => ?_
  exact Cl.setValue (by sd) _

theorem cl_delegated {field : Layer T → Option Nat} (hf : ∀ g x, LayerIn g x → Opt g.node (field x)) (f : Nat) {l : Nat} (hl : g.layer l) :
    Cl b g (LayerM.delegated field f l) fun g' o => Opt g'.node o := by
  induction f generalizing l g with
  | zero => exact Cl.abort
  | succ f ih =>
    unfold LayerM.delegated
    refine Cl.bind (Cl.layer hl) fun g1 x l1 hx => ?_
    split
    · exact ih (by sd)
    · exact Cl.pure _ (hf _ _ hx)

theorem cl_getOutputs (f : Nat) {l : Nat} (hl : g.layer l) : Cl b g (LayerM.getOutputs f l : Run T (Option Nat)) fun g' o => Opt g'.node o :=
  cl_delegated (fun _ _ h => h.output) f hl

theorem cl_getDif (f : Nat) {l : Nat} (hl : g.layer l) : Cl b g (LayerM.getDif f l : Run T (Option Nat)) fun g' o => Opt g'.node o :=
  cl_delegated (fun _ _ h => h.dif) f hl

theorem cl_getInputs (f : Nat) {l : Nat} (hl : g.layer l) : Cl b g (LayerM.getInputs f l : Run T (Option Nat)) fun g' o => Opt g'.node o := by
  unfold LayerM.getInputs
  refine Cl.bind (Cl.layer hl) fun g1 x l1 hx => ?_
  split
  · exact cl_getOutputs f (by sd)
  · exact Cl.pure _ hx.input

theorem cl_preBuild {rec : Nat → Run T Nat} (h : ∀ {g : Sd} {p}, g.layer p → Cl b g (rec p) fun _ _ => True) {l : Nat} (hl : g.layer l) :
    Cl b g (LayerM.preBuild rec l) fun _ _ => True := by
  unfold LayerM.preBuild
  refine Cl.bind (cl_getRef hl) fun _ _ _ _ => ?_
  refine Cl.bind (Cl.layer (by sd)) fun _ x _ _ => ?_
  dsimp only
  split
  · st
  · refine Cl.bind (cl_addRef (by sd) _) fun _ _ _ _ => ?_
    refine Cl.bind (h (by sd)) fun _ _ _ _ => ?_
    st

theorem kind_concat {k : LKind T} (h : KindIn g k) {l1 l2 d : Nat} (e : k = .concat l1 l2 d) : g.layer l1 ∧ g.layer l2 := by subst e; exact h

theorem cl_build (f : Nat) {l : Nat} (hl : g.layer l) : Cl b g (LayerM.build f l : Run T Nat) fun _ _ => True := by
  induction f generalizing l g with
  | zero => exact Cl.abort
  | succ f ih =>
    unfold LayerM.build
    refine Cl.bind (Cl.layer hl) fun g1 x l1 hx => Cl.ite (fun _ => Cl.pure _ trivial) fun _ => ?_
    refine Cl.bind (Cl.modify (by sd) (by md)) fun g2 _ _ _ => ?_
    split
    · next e =>
      obtain ⟨k1, k2⟩ := kind_concat hx.kind e
      refine Cl.bind (cl_addRef (by sd) _) fun _ _ _ _ => ?_
      refine Cl.bind (cl_addRef (by sd) _) fun _ _ _ _ => ?_
      refine Cl.bind (ih (by sd)) fun _ _ _ _ => ?_
      refine Cl.bind (ih (by sd)) fun _ _ _ _ => ?_
      st
    · refine Cl.bind (cl_preBuild ih (by sd)) fun _ _ _ _ => ?_
      st
    · refine Cl.bind (cl_preBuild ih (by sd)) fun _ _ _ _ => ?_
      st
    · refine Cl.bind (cl_preBuild ih (by sd)) fun _ _ _ _ => ?_
      st
    · refine Cl.bind (cl_preBuild ih (by sd)) fun _ _ _ _ => ?_
      dsimp only
      split
      · st
      · refine Cl.bind (Cl.layer (by sd)) fun _ _ _ _ => ?_
        refine Cl.bind (Cl.value _) fun _ _ _ _ => ?_
        refine Cl.bind (cl_addRef (by sd) _) fun _ _ _ _ => ?_
        refine Cl.bind (cl_getRef (by sd)) fun _ _ _ _ => ?_
        st
    · refine Cl.bind (cl_preBuild ih (by sd)) fun _ _ _ _ => ?_
      split
      · st
      · st

end Side
end Godeep
