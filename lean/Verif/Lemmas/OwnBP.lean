import Verif.Lemmas.OwnPrim
/-
  Compiling the back-propagation keeps the invariant.
-/
set_option linter.unusedSectionVars false

namespace Godeep
open Spec GoNum

variable {T : Type} [GoNum T] {α β : Type}

namespace Own
variable {A : Nat → Prop} {B : Chg} {g g' : G T}

/-- the facts about a layer object that was read -/
structure LF (g : G T) (l : Nat) (x : Layer T) : Prop where
  input : ∀ n, x.input = some n → g.clean n
  output : ∀ n, x.output = some n → g.clean n
  dif : ∀ n, x.dif = some n → g.clean n
  ref : Safe g x.ref
  pre : ∀ p, x.pre = some p → p < g.w.layerNext
  cat : ∀ a b d, x.kind = .concat a b d → a < g.w.layerNext ∧ b < g.w.layerNext
  wts : ∀ n, x.weights = some n ∨ x.bias = some n → Owned g l n

theorem Inv.lf (hi : Inv g) (l : Nat) : LF g l (g.w.layers l) := ⟨hi.input l, hi.output l, hi.dif l, hi.ref l, hi.pre l, hi.cat l, hi.wts l⟩

theorem At.lay (l : Nat) : At A B g (Run.layer l) fun g' x => LF g' l x ∧ x = g'.w.layers l := fun hi => ⟨g, rfl, hi, Le.refl hi, hi.lf l, rfl⟩

theorem At.opt (o : Option α) : At A B g (Run.deref o : Run T α) fun _ x => o = .some x := At.deref o fun _ h _ => h

/-- a tensor that a delegated access returns -/
theorem At.delegated {field : Layer T → Option Nat} (hf : ∀ g : G T, Inv g → ∀ l n, field (g.w.layers l) = .some n → g.clean n) (f l : Nat) :
    At A B g (LayerM.delegated field f l) fun g' o => ∀ n, o = .some n → g'.clean n := by
  induction f generalizing l g with
  | zero => exact At.abort
  | succ f ih =>
    unfold LayerM.delegated
    refine At.bind (At.layer l) fun g1 x _ hx => ?_
    split
    · exact ih _
    · exact At.pure _ fun hi n hn => hf g1 hi l n (by rw [← hx.2]; exact hn)

theorem At.getDif (f l : Nat) : At A B g (LayerM.getDif f l : Run T _) fun g' o => ∀ n, o = .some n → g'.clean n :=
  At.delegated (fun _ hi => hi.dif) f l

theorem At.getOutputs (f l : Nat) : At A B g (LayerM.getOutputs f l : Run T _) fun g' o => ∀ n, o = .some n → g'.clean n :=
  At.delegated (fun _ hi => hi.output) f l

theorem At.getInputs (f l : Nat) : At A B g (LayerM.getInputs f l : Run T _) fun g' o => ∀ n, o = .some n → g'.clean n := by
  unfold LayerM.getInputs
  refine At.bind (At.layer l) fun g1 x _ hx => ?_
  split
  · exact At.getOutputs _ _
  · exact At.pure _ fun hi n hn => hi.input l n (by rw [← hx.2]; exact hn)

/-- a modification that keeps the fields the invariant speaks of -/
theorem At.modSame {l : Nat} {f : Layer T → Layer T} (h : ∀ x, (f x).input = x.input ∧ (f x).output = x.output ∧ (f x).dif = x.dif ∧ (f x).ref = x.ref ∧
    (f x).weights = x.weights ∧ (f x).bias = x.bias ∧ (f x).ff = x.ff ∧ (f x).pre = x.pre ∧ (f x).kind = x.kind)
    (htr : ∀ x, (B.2.1 ∧ (B.2.2 ∨ (x.trainable = false → (f x).trainable = false))) ∨ ((f x).trainable = x.trainable ∧ (f x).pre = x.pre) := by exact fun _ => .inr ⟨rfl, rfl⟩) :
    At A B g (Run.modify l f) fun _ _ => True := by
  refine (At.modify (fun hi => ?_) htr fun x => (h x).2.2.2.2.2.2.2.2).mono fun _ _ _ _ => trivial
  obtain ⟨h1, h2, h3, h4, h5, h6, h7, h8, h9⟩ := h (g.w.layers l)
  refine ⟨by rw [h1]; exact hi.input l, by rw [h2]; exact hi.output l, by rw [h3]; exact hi.dif l, by rw [h4]; exact hi.ref l,
    by rw [h5, h6]; exact hi.wts l, by rw [h5, h6]; exact hi.drawn l, ⟨by rw [h5, h6]; exact (hi.neat l).solid, by rw [h5, h6]; exact (hi.neat l).apart⟩, by rw [h5, h6, h7]; exact hi.unff l, by rw [h7]; exact hi.unused l, by rw [h8]; exact hi.pre l,
    by rw [h9]; exact hi.cat l, by rw [h7]; exact fun h => h, by rw [h5, h6]; exact fun _ _ => ⟨rfl, rfl⟩⟩

theorem At.modDif {l n : Nat} (h : g.clean n) : At A B g (Run.modify l fun x => { x with dif := some n }) fun _ _ => True :=
  (At.modify fun hi => { LOk.refl hi l with neat := ⟨(hi.neat l).solid, (hi.neat l).apart⟩, dif := fun k hk => by cases hk; exact h }).mono fun _ _ _ _ => trivial

theorem At.modOutput {l n : Nat} (h : g.clean n) : At A B g (Run.modify l fun x => { x with output := some n }) fun _ _ => True :=
  (At.modify fun hi => { LOk.refl hi l with neat := ⟨(hi.neat l).solid, (hi.neat l).apart⟩, output := fun k hk => by cases hk; exact h }).mono fun _ _ _ _ => trivial

/-- `clean` and `Safe` goals from what is known in earlier states -/
syntax "cl" : tactic
macro_rules
  | `(tactic| cl) => `(tactic| first
    | assumption
    | exact LF.ref (And.left (by assumption))
    | exact LF.dif (And.left (by assumption)) _ (by assumption)
    | exact LF.output (And.left (by assumption)) _ (by assumption)
    | exact LF.input (And.left (by assumption)) _ (by assumption)
    | exact (by assumption : ∀ n, _ = some n → _) _ (by assumption)
    | (refine (by assumption : Views _ _ → _) ?_; intro t ht; first | (cases ht; done) | (simp only [Kind.views, List.mem_cons, List.not_mem_nil, or_false] at ht; first | (subst ht; cl) | (rcases ht with rfl | rfl <;> cl)))
    | (refine (by assumption : G.clean _ _ → _) ?_; cl)
    | (refine Le.clean (by assumption) _ ?_; cl)
    | (refine Safe.le ?_ (by assumption); cl))

macro "own1" : tactic => `(tactic| first
  | exact At.pure _ (fun _ => trivial)
  | exact At.abort
  | exact At.fail _
  | refine At.each fun _ _ _ => ?_
  | refine At.collect fun _ _ _ => ?_
  | refine At.foldlM _ fun _ _ _ _ => ?_
  | exact At.push (by cl)
  | exact At.buildGraph _
  | exact At.transfer _ (by cl)
  | exact At.fill _ (by cl)
  | exact At.modSame fun _ => ⟨rfl, rfl, rfl, rfl, rfl, rfl, rfl, rfl, rfl⟩
  | exact At.modDif (by cl)
  | exact At.modOutput (by cl)
  | exact (At.emit _).mono fun _ _ _ _ => trivial
  | exact (At.operand _ _).mono fun _ _ _ _ => trivial
  | exact (At.scalar _).mono fun _ _ _ _ => trivial
  | exact (At.lazy (by intro t ht; cases ht)).mono fun _ _ _ _ => trivial
  | refine At.bind (At.lay _) fun _ _ _ _ => ?_
  | refine At.bind (At.opt _) fun _ _ _ _ => ?_
  | refine At.bind (At.mat _) fun _ _ _ _ => ?_
  | refine At.bind (At.value _) fun _ _ _ _ => ?_
  | refine At.bind (At.zeros _) fun _ _ _ _ => ?_
  | refine At.bind (At.scalar _) fun _ _ _ _ => ?_
  | refine At.bind (At.emit _) fun _ _ _ _ => ?_
  | refine At.bind (At.operand _ _) fun _ _ _ _ => ?_
  | refine At.bind (At.operandAt _ _) fun _ _ _ _ => ?_
  | refine At.bind (At.push (by cl)) fun _ _ _ _ => ?_
  | refine At.bind (At.getDif _ _) fun _ _ _ _ => ?_
  | refine At.bind (At.getOutputs _ _) fun _ _ _ _ => ?_
  | refine At.bind (At.lazy (by intro t ht; cases ht)) fun _ _ _ _ => ?_
  | refine At.bind (At.reshape _ _) fun _ _ _ _ => ?_
  | refine At.bind (At.flatten _) fun _ _ _ _ => ?_
  | refine At.bind (At.buildGraph _) fun _ _ _ _ => ?_
  | refine At.bind (At.transfer _ (by cl)) fun _ _ _ _ => ?_
  | refine At.bind (At.modSame fun _ => ⟨rfl, rfl, rfl, rfl, rfl, rfl, rfl, rfl, rfl⟩) fun _ _ _ _ => ?_
  | refine At.bind (At.modDif (by cl)) fun _ _ _ _ => ?_
  | refine At.bind (At.modOutput (by cl)) fun _ _ _ _ => ?_
  | refine At.bind (At.lift _ fun _ _ _ => trivial) fun _ _ _ (_ : True) => ?_
  | refine At.bind (Q := fun _ _ => True) (At.each fun _ _ _ => ?_) fun _ _ _ _ => ?_
  | refine At.bind (Q := fun _ _ => True) (At.collect fun _ _ _ => ?_) fun _ _ _ _ => ?_
  | refine At.bind (Q := fun _ _ => True) (At.foldlM _ fun _ _ _ _ => ?_) fun _ _ _ _ => ?_
  | refine At.ite (fun _ => ?_) (fun _ => ?_))

macro "own" : tactic => `(tactic| repeat' own1)

theorem own_scaledDif (x : Layer T) : At A B g (LayerM.scaledDif x) fun _ _ => True := by unfold LayerM.scaledDif; own

theorem own_baseDer (l : Nat) : At A B g (LayerM.baseDer l : Run T Nat) fun _ _ => True := by unfold LayerM.baseDer; own

theorem own_maxPoolDer {rec : Nat → Run T Nat} (h : ∀ p (g : G T), At A B g (rec p) fun _ _ => True) (sx sy l : Nat) :
    At A B g (LayerM.maxPoolDer rec sx sy l) fun _ _ => True := by
  unfold LayerM.maxPoolDer
  repeat' (first | own1 | refine At.bind (h _ _) fun _ _ _ _ => ?_)

theorem own_upSamplingDer {rec : Nat → Run T Nat} (h : ∀ p (g : G T), At A B g (rec p) fun _ _ => True) (sx sy l : Nat) :
    At A B g (LayerM.upSamplingDer rec sx sy l) fun _ _ => True := by
  unfold LayerM.upSamplingDer
  repeat' (first | own1 | refine At.bind (h _ _) fun _ _ _ _ => ?_)

theorem own_buildDer (f l : Nat) : At A B g (LayerM.buildDer f l : Run T Nat) fun _ _ => True := by
  induction f generalizing l g with
  | zero => exact At.abort
  | succ f ih =>
    unfold LayerM.buildDer
    refine At.bind (At.lay l) fun g1 x l1 hx => ?_
    split
    · exact ih _
    · split
      · own
      · split
        all_goals first
          | exact own_baseDer l
          | exact own_maxPoolDer (fun p g => ih (g := g) p) _ _ l
          | exact own_upSamplingDer (fun p g => ih (g := g) p) _ _ l
          | repeat' (first | own1 | refine At.bind (ih _) fun _ _ _ _ => ?_)

theorem own_densePre (dif w der o i : Nat) {pdif : Nat} (h : g.clean pdif) : At A B g (LayerM.densePre dif w der pdif o i : Run T Unit) fun _ _ => True := by
  unfold LayerM.densePre; own

theorem own_denseUpdate (dif w b mw mb inp : Nat) {nw nb : Nat} (h1 : g.clean nw) (h2 : g.clean nb) (a m : Nat) (n i : Nat) :
    At A B g (LayerM.denseUpdate dif w b nw mw nb mb inp a m n i : Run T Unit) fun _ _ => True := by
  unfold LayerM.denseUpdate; own

theorem own_convPre (kw sx sy : Nat) (si so : List Nat) (dif w der : Nat) {pdif : Nat} (h : g.clean pdif) :
    At A B g (LayerM.convPre kw sx sy si so dif w der pdif : Run T Unit) fun _ _ => True := by
  unfold LayerM.convPre; own

theorem own_deconvPre (kw kh sx sy : Nat) (si so : List Nat) (dif w der : Nat) {pdif : Nat} (h : g.clean pdif) :
    At A B g (LayerM.deconvPre kw kh sx sy si so dif w der pdif : Run T Unit) fun _ _ => True := by
  unfold LayerM.deconvPre; own

theorem own_convBias (l : Nat) (x : Layer T) (b mw : Nat) {mb : Nat} (h : g.clean mb) (a m : Nat) :
    At A B g (LayerM.convBias l x b mb mw a m) fun g' r => g'.clean r.2 := by
  unfold LayerM.convBias
  own
  refine At.pure _ fun _ => ?_
  dsimp only
  cl

theorem own_convUpdate (kw kh sy : Nat) (si so : List Nat) (inp dif w : Nat) {wm nw : Nat} (h1 : g.clean wm) (h2 : g.clean nw) :
    At A B g (LayerM.convUpdate kw kh sy si so inp dif w wm nw : Run T Unit) fun _ _ => True := by
  unfold LayerM.convUpdate; own

theorem own_deconvUpdate (kw kh sx sy : Nat) (si so : List Nat) (inp dif w : Nat) {wm nw : Nat} (h1 : g.clean wm) (h2 : g.clean nw) :
    At A B g (LayerM.deconvUpdate kw kh sx sy si so inp dif w wm nw : Run T Unit) fun _ _ => True := by
  unfold LayerM.deconvUpdate; own

end Own
end Godeep
