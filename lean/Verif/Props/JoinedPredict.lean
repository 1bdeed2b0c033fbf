import Verif.Props.Joined
import Verif.Model.Activation
import Verif.Lemmas.JParams
/-
  C72: a model made by `FromModels` computes the composition of its parts.
-/
set_option linter.unusedSectionVars false

namespace Godeep.Props
open Godeep Spec GoNum

variable {T : Type} [GoNum T]

/-- C72, what is proved: A program makes sequential models of layers of any kinds and sizes that fit together (the first has input shape `shape`; the
declared input shapes of the others play no role), and joins them by `FromModels`.  If that returns a model `m`, then in any later state the parts
have weights and biases, and `Predict` of `m` for a tensor `x` of shape `shape` returns a new tensor that holds the composition of the functions of the
parts, with their weights and biases of that state.  It leaves these, and all other tensors of the program, as they were.  In a later state the weights may
have been given any values, and `m` may have been used for any predictions.  Missing: models that were compiled before they were joined (it is
false of them, see `C72_used_before`), parts other than the first that have only an input layer, and training.  `FromModels` can return an error,
for example if a kernel of a convolution is wider than high; so "if". -/
theorem C72_joined_partial (hlaw : eq (add zero one) (zero : T) = false) {shape : List Nat} {ls : List (LSpec T)}
    {nets : List (List Nat × List (LSpec T))} (hfit : Fits (ls ++ (nets.map Prod.snd).flatten) shape)
    (hsafe : Safe (ls ++ (nets.map Prod.snd).flatten) shape) (hne : ∀ p ∈ nets, p.2 ≠ []) {w0 : World T} (hpos : 0 < w0.store.heap.next)
    {ms : List Nat} {m : Nat} {w1 : World T} (he : joined ((shape, ls) :: nets) w0 = .ok (ms, m) w1) :
    ms.length = nets.length + 1 ∧
    (∀ n x, n < w0.nodeNext → Spec.frozen w0.store n → Holds w0.store.heap (w0.store.nodes n).mat x → UserTensor w0 w1 w1 n x) ∧
    ∀ w2, Steps w0 w1 m w1 w2 →
      (∃ pvs, List.Forall₂ (PartParams w1 w2) ms pvs) ∧
      ∀ t x pvs, UserTensor w0 w1 w2 t x → x.shape = shape → List.Forall₂ (PartParams w1 w2) ms pvs →
        ∃ r w3, NetM.predict m t w2 = .ok r w3 ∧
          UserTensor w0 w1 w3 r (composed (ls :: nets.map Prod.snd) pvs x) ∧ List.Forall₂ (PartParams w1 w3) ms pvs ∧ r = w2.nodeNext ∧
          ∀ n y, UserTensor w0 w1 w2 n y → UserTensor w0 w1 w3 n y := by
  obtain ⟨d, m0, rest, e1, e2, M, hp⟩ := wp_ok (joined_made hlaw hpos (fun s _ => ffGood_all s) (fun p _ s _ => ffGood_all s) hne hfit) he
  simp only at e1 M
  subst e1
  refine ⟨by simp [e2], fun n x h1 h2 h3 => user_made M h1 h2 h3, fun w2 hst => ?_⟩
  obtain ⟨todo, htodo⟩ : ∃ t, t = (nets.map Prod.snd).zip rest := ⟨_, rfl⟩
  have z1 : todo.map Prod.fst = nets.map Prod.snd := by
    rw [htodo, ← List.unzip_fst, List.unzip_zip (by simp [e2])]
  have z2 : todo.map Prod.snd = rest := by
    rw [htodo, ← List.unzip_snd, List.unzip_zip (by simp [e2])]
  rw [← htodo, ← M.base] at hp
  rw [← z1] at M hsafe ⊢
  rw [← z2]
  have L := live_steps M hst
  obtain ⟨h1, h2⟩ := L.parts M hp
  refine ⟨h1, fun t x pvs hu hs hpv => ?_⟩
  obtain ⟨P, pvs, rfl⟩ : ∃ P Q, pvs = P :: Q := by cases hpv; exact ⟨_, _, rfl⟩
  obtain ⟨a1, a2, a3, a4⟩ := h2 P pvs hpv
  have K := live_predict M L hu hs
  have K' : wp True (NetM.predict m t) (fun r b => Predicted m shape (joinLs shape ls (todo.map Prod.fst)) d x r w2 b ∧ Live w0 w1 m d b) w2 := by
    unfold wp at K ⊢
    cases e : NetM.predict m t w2 with
    | ok _ _ => rw [e] at K; exact K
    | err _ _ => rw [e] at K; exact (K (safe_join hsafe)).elim
    | panic => rw [e] at K; exact (K (safe_join hsafe)).elim
  obtain ⟨r, w3, e3, Pr, L3⟩ := wp_total K'
  refine ⟨r, w3, e3, ?_, L3.parts_of M hp a1 a2 (Pr.params M L a3), Pr.fresh.1, fun n y hn => Pr.user M hn⟩
  have := Pr.result M L a3
  rw [netFn_join hs (List.forall₂_map_left_iff.2 a2) a1 a4] at this
  exact this

/-- three models; the second declares an input shape that does not fit and is ignored -/
def threeNets : List (List Nat × List (LSpec Int)) :=
  [([1], [.dense 2 (.relu 0), .flatten]), ([7], [.dense 1 .linear]), ([1], [.sub 0 0 1, .dense 1 .linear])]

theorem threeNets_joined : ∃ ms m w1, joined threeNets world2 = .ok (ms, m) w1 ∧ ms = [0, 1, 2] ∧ m = 3 := by
  have h : (okAnd (joined threeNets world2) fun p _ => p.1 == [0, 1, 2] && p.2 == 3) = true := by decide +kernel
  obtain ⟨⟨ms, m⟩, w, e, h⟩ := okAnd_ok h
  simp only [Bool.and_eq_true, beq_iff_eq] at h
  exact ⟨ms, m, w, e, h.1, h.2⟩

theorem branchWorld_holds (n : Nat) : Holds world2.store.heap (world2.store.nodes n).mat (ofMat world2.store.heap.val (world2.store.nodes n).mat) := by
  refine good_holds ?_
  by_cases hn : n = 0
  · subst hn
    exact ⟨rfl, rfl, fun p hp => by simp only [world2, if_pos, List.mem_singleton] at hp; subst hp; exact ⟨by decide, by decide⟩⟩
  · exact ⟨rfl, rfl, fun p hp => by simp only [world2, if_neg hn, List.mem_singleton] at hp; subst hp; exact ⟨by decide, by decide⟩⟩

/-- C72 applies to them: the joined model predicts on the tensor 0 of the initial state -/
example : ∃ ms m w1 x pvs r w3, joined threeNets world2 = .ok (ms, m) w1 ∧ List.Forall₂ (PartParams w1 w1) ms pvs ∧ Holds w1.store.heap (w1.store.nodes 0).mat x ∧
    NetM.predict m 0 w1 = .ok r w3 ∧ UserTensor world2 w1 w3 r (composed (threeNets.map Prod.snd) pvs x) := by
  obtain ⟨ms, m, w1, e, _⟩ := threeNets_joined
  have hfit : Fits ([.dense 2 (.relu 0), .flatten] ++ ([([7], [.dense 1 .linear]), ([1], [.sub 0 0 1, .dense 1 .linear])].map Prod.snd).flatten : List (LSpec Int)) [1] := by
    simp [Fits, LSpec.fits, LSpec.outShape]
  have hsafe : Safe ([.dense 2 (.relu 0), .flatten] ++ ([([7], [.dense 1 .linear]), ([1], [.sub 0 0 1, .dense 1 .linear])].map Prod.snd).flatten : List (LSpec Int)) [1] := by
    simp [Safe, LSpec.safe]
  obtain ⟨_, h1, h2⟩ := C72_joined_partial (T := Int) rfl hfit hsafe (by simp) (by decide) e
  have hu := h1 0 _ (by decide) (frozen_leaf rfl) (branchWorld_holds 0)
  obtain ⟨⟨pvs, h3⟩, h4⟩ := h2 w1 .none
  obtain ⟨r, w3, e3, u3, _⟩ := h4 0 _ pvs hu rfl h3
  exact ⟨ms, m, w1, _, pvs, r, w3, e, h3, hu.2.1, e3, u3⟩

end Godeep.Props
