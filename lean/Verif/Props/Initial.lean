import Verif.Props.Program
/-
  C92: the weights that layers start with.
-/
set_option linter.unusedSectionVars false

namespace Godeep.Props
open Godeep Spec GoNum

variable {T : Type} [GoNum T] [Bin T]

/-- the labels of a state, with the first random numbers still in the weights of the layers in `S` -/
theorem first_numbers {S : Nat → Prop} {rnd : Nat → Nat → T} {e : Env} {w : World T}
    (h : Calls (fun w c => ∀ l, S l → ¬ c.mayChange w l) {} (start rnd) e w) :
    ∃ g : Own.G T, g.w = w ∧ Own.Inv g ∧ Own.EnvOk g e ∧ w.rnd = rnd ∧
      ∀ q l s, S l → g.own q = some l → g.src q = some s → g.w.store.heap.val q = rnd s.1 s.2 := by
  generalize he : ({} : Env) = e0 at h
  generalize hw : start rnd = w0 at h
  induction h with
  | refl =>
    subst he hw
    exact ⟨_, rfl, Own.inv_start rnd, ⟨fun _ h => absurd h List.not_mem_nil, fun _ h => absurd h List.not_mem_nil, fun _ h => absurd h List.not_mem_nil, fun _ h => absurd h List.not_mem_nil⟩, rfl,
      fun _ _ _ _ h => by cases h⟩
  | ok _ hu hp hr ih =>
    obtain ⟨g1, rfl, i1, e1, r1, v1⟩ := ih hw
    have H := Own.own_act _ hu e1 i1
    rw [hr] at H
    obtain ⟨g2, rfl, i2, l2, r2⟩ := H
    refine ⟨g2, rfl, i2, Own.env_add (e1.le l2) r2, l2.rnd.trans r1, fun q l s hS ho hs => ?_⟩
    by_cases hq : q < g1.w.store.heap.next
    · rw [l2.own q hq] at ho
      rw [l2.src q hq] at hs
      rw [l2.val q l ho (hp l hS)]
      exact v1 q l s hS ho hs
    · rw [l2.new q l s (not_lt.1 hq) hs ho (hp l hS), l2.rnd, r1]
  | err _ hu hp hr ih =>
    obtain ⟨g1, rfl, i1, e1, r1, v1⟩ := ih hw
    have H := Own.own_act _ hu e1 i1
    rw [hr] at H
    obtain ⟨g2, rfl, i2, l2⟩ := H
    refine ⟨g2, rfl, i2, e1.le l2, l2.rnd.trans r1, fun q l s hS ho hs => ?_⟩
    by_cases hq : q < g1.w.store.heap.next
    · rw [l2.own q hq] at ho
      rw [l2.src q hq] at hs
      rw [l2.val q l ho (hp l hS)]
      exact v1 q l s hS ho hs
    · rw [l2.new q l s (not_lt.1 hq) hs ho (hp l hS), l2.rnd, r1]

/-- C92: Let a program make any calls, none of which trains or loads a layer in `S`.  Each weights or bias tensor of a layer in
`S` then holds, one number for each element that its shape has, the numbers of one draw from the random number generator; and no
draw is used for two tensors of weights or biases that have elements, be it of one layer or of two. -/
theorem C92_initial_weights {S : Nat → Prop} {rnd : Nat → Nat → T} {e : Env} {w : World T}
    (h : Calls (fun w c => ∀ l, S l → ¬ c.mayChange w l) {} (start rnd) e w) :
    ∃ draw : Nat → Bool → Nat,
      (∀ l b n, S l → part (w.layers l) b = some n → draw l b < w.draws ∧
        numbers w (some n) = some ((w.store.nodes n).mat.shape, (List.range (dataSize (w.store.nodes n).mat.shape)).map (rnd (draw l b)))) ∧
      ∀ l b n l' b' n', part (w.layers l) b = some n → part (w.layers l') b' = some n' → (w.store.nodes n).mat.ops ≠ [] → (w.store.nodes n').mat.ops ≠ [] →
        draw l b = draw l' b' → l = l' ∧ b = b' := by
  classical
  obtain ⟨g, rfl, hi, -, -, hv⟩ := first_numbers h
  have mem : ∀ l b n, part (g.w.layers l) b = some n → (g.w.layers l).weights = some n ∨ (g.w.layers l).bias = some n := fun l b n hn => by
    cases b
    · exact .inr hn
    · exact .inl hn
  have ex : ∀ l b, ∃ k, ∀ n, part (g.w.layers l) b = some n → k < g.w.draws ∧ ∀ i q, (g.w.store.nodes n).mat.ops[i]? = some q → g.src q = some (k, i) := fun l b => by
    cases e : part (g.w.layers l) b with
    | none => exact ⟨0, fun n hn => by cases hn⟩
    | some n =>
      obtain ⟨k, hk⟩ := hi.drawn l n (mem l b n e)
      exact ⟨k, fun n' hn => by cases hn; exact hk⟩
  choose draw hd using ex
  refine ⟨draw, fun l b n hS hn => ⟨(hd l b n hn).1, ?_⟩, fun l b n l' b' n' hn hn' ho ho' hk => ?_⟩
  · show some (_, _) = some (_, _)
    congr 2
    refine List.ext_getElem? fun i => ?_
    have hlen := ((hi.neat l).solid n (mem l b n hn)).len
    rw [List.getElem?_map, List.getElem?_map]
    cases e : (g.w.store.nodes n).mat.ops[i]? with
    | none =>
      have := List.getElem?_eq_none_iff.1 e
      rw [List.getElem?_eq_none_iff.2 (by rw [List.length_range]; omega)]
      rfl
    | some q =>
      have hi' := (List.getElem?_eq_some_iff.1 e).1
      rw [List.getElem?_range (by omega)]
      show some _ = some _
      rw [hv q l _ hS ((hi.wts l n (mem l b n hn)).ops q (List.mem_of_getElem? e)).2 ((hd l b n hn).2 i q e)]
  · obtain ⟨q, qs, hq⟩ := List.exists_cons_of_ne_nil ho
    obtain ⟨q', qs', hq'⟩ := List.exists_cons_of_ne_nil ho'
    have s1 := (hd l b n hn).2 0 q (by rw [hq]; rfl)
    have s2 := (hd l' b' n' hn').2 0 q' (by rw [hq']; rfl)
    rw [← hk] at s2
    have eq := hi.src.inj q q' _ s1 s2
    subst eq
    have m1 : q ∈ (g.w.store.nodes n).mat.ops := by rw [hq]; exact List.mem_cons_self
    have m2 : q ∈ (g.w.store.nodes n').mat.ops := by rw [hq']; exact List.mem_cons_self
    have o1 := ((hi.wts l n (mem l b n hn)).ops q m1).2
    have o2 := ((hi.wts l' n' (mem l' b' n' hn')).ops q m2).2
    rw [o1] at o2
    cases o2
    refine ⟨rfl, ?_⟩
    cases b <;> cases b'
    · rfl
    · exact absurd m1 ((hi.neat l).apart n' n hn' hn q m2)
    · exact absurd m2 ((hi.neat l).apart n n' hn hn' q m1)
    · rfl

/-- the calls that train or load -/
def learns : Act T → Bool
  | .trainOne .. | .train .. | .load .. => true
  | _ => false

/-- C92, before any training: in a program that has trained and loaded nothing so far, whatever else it has done, all weights and
biases are the numbers of draws, each of another one. -/
theorem C92_untrained {rnd : Nat → Nat → T} {e : Env} {w : World T} (h : Calls (fun _ c => learns c = false) {} (start rnd) e w) :
    ∃ draw : Nat → Bool → Nat,
      (∀ l b n, part (w.layers l) b = some n → draw l b < w.draws ∧
        numbers w (some n) = some ((w.store.nodes n).mat.shape, (List.range (dataSize (w.store.nodes n).mat.shape)).map (rnd (draw l b)))) ∧
      ∀ l b n l' b' n', part (w.layers l) b = some n → part (w.layers l') b' = some n' → (w.store.nodes n).mat.ops ≠ [] → (w.store.nodes n').mat.ops ≠ [] →
        draw l b = draw l' b' → l = l' ∧ b = b' := by
  obtain ⟨draw, h1, h2⟩ := C92_initial_weights (S := fun _ => True) (calls_mono (fun w c hc l _ hm => by
    cases c <;> first | exact hm | cases hc) h)
  exact ⟨draw, fun l b n hn => h1 l b n trivial hn, h2⟩

/-- C92, no two layers start alike: when the first numbers of all draws differ, any two weights or biases with elements differ as
long as nothing has been trained or loaded. -/
theorem C92_apart {rnd : Nat → Nat → T} (hr : ∀ k k', rnd k 0 = rnd k' 0 → k = k') {e : Env} {w : World T}
    (h : Calls (fun _ c => learns c = false) {} (start rnd) e w) {l l' n n' : Nat} {b b' : Bool} (hn : part (w.layers l) b = some n)
    (hn' : part (w.layers l') b' = some n') (ho : (w.store.nodes n).mat.ops ≠ []) (ho' : (w.store.nodes n').mat.ops ≠ []) (hne : ¬ (l = l' ∧ b = b')) :
    (w.store.nodes n).mat.ops.map w.store.heap.val ≠ (w.store.nodes n').mat.ops.map w.store.heap.val := by
  obtain ⟨draw, h1, h2⟩ := C92_untrained h
  have e1 := congrArg Prod.snd (Option.some.inj (h1 l b n hn).2)
  have e2 := congrArg Prod.snd (Option.some.inj (h1 l' b' n' hn').2)
  dsimp only at e1 e2
  rw [e1, e2]
  have pos : ∀ (n : Nat) (f : Nat → T), (w.store.nodes n).mat.ops ≠ [] → (w.store.nodes n).mat.ops.map w.store.heap.val = (List.range (dataSize (w.store.nodes n).mat.shape)).map f →
      ∃ k, dataSize (w.store.nodes n).mat.shape = k + 1 := fun n f ho e => by
    have hl := congrArg List.length e
    rw [List.length_map, List.length_map, List.length_range] at hl
    have := List.length_pos_iff.2 ho
    exact ⟨dataSize (w.store.nodes n).mat.shape - 1, by omega⟩
  obtain ⟨k, hk⟩ := pos n _ ho e1
  obtain ⟨k', hk'⟩ := pos n' _ ho' e2
  rw [hk, hk', List.range_succ_eq_map, List.range_succ_eq_map]
  intro hc
  exact hne (h2 l b n l' b' n' hn hn' ho ho' (hr _ _ (List.cons.inj hc).1))

/-- `follow`, when all calls satisfy a condition -/
theorem follow_all {P : World T → Act T → Prop} (cs : List (Act T)) (s s' : Env × World T) (h : follow cs s = some s') (hu : follows cs s)
    (hp : ∀ c ∈ cs, ∀ w, P w c) : Calls P s.1 s.2 s'.1 s'.2 := by
  induction cs generalizing s with
  | nil => cases h; exact .refl _ _
  | cons c cs ih =>
    unfold follow at h
    unfold follows at hu
    cases e : c.run s.2 with
    | ok r w =>
      rw [e] at h hu
      exact calls_trans (.ok (.refl _ _) hu.1 (hp c List.mem_cons_self _) e) (ih _ h hu.2 fun c hc => hp c (List.mem_cons_of_mem _ hc))
    | err x w => rw [e] at h; cases h
    | panic => rw [e] at h; cases h

/-- C92 is not empty: `program`, which makes and compiles two models that share a layer and predicts, trains and loads nothing;
the layers 1, 2 and 3 have weights and biases with elements, and the first numbers of its draws differ up to wrapping. -/
theorem C92_example : ∃ (e : Env) (w : World (BitVec 16)), Calls (fun _ c => learns c = false) {} (start fun k i => BitVec.ofNat 16 (k + i + 2)) e w ∧
    ∀ l ∈ [1, 2, 3], ∀ b, ∃ n, part (w.layers l) b = some n ∧ (w.store.nodes n).mat.ops ≠ [] := by
  have key : (match before with
    | some (_, w) => [1, 2, 3].all fun l => [true, false].all fun b => match part (w.layers l) b with
      | some n => !(w.store.nodes n).mat.ops.isEmpty
      | none => false
    | none => false) = true ∧ (program.all fun c => !learns c) = true := by decide +kernel
  obtain ⟨h, hl⟩ := key
  have hf := program_check.2
  cases e0 : before with
  | none => rw [e0] at h; cases h
  | some s =>
    rw [e0] at h
    dsimp only at h
    refine ⟨s.1, s.2, follow_all program ({}, start fun k i => BitVec.ofNat 16 (k + i + 2)) s e0 (followsB_iff _ _ hf) fun c hc _ => ?_, fun l hl b => ?_⟩
    · have := List.all_eq_true.1 hl c hc
      simpa using this
    · have h1 := List.all_eq_true.1 (List.all_eq_true.1 h l hl) b (by cases b <;> simp)
      cases e1 : part (s.2.layers l) b with
      | none => rw [e1] at h1; cases h1
      | some n =>
        rw [e1] at h1
        exact ⟨n, rfl, by simpa using h1⟩

end Godeep.Props
