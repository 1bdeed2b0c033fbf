import Verif.Lemmas.GConv
import Verif.Lemmas.GPool
/-
  Back-propagation through convolutions and transposed convolutions: the loops.
-/
set_option linter.unusedSectionVars false

namespace Godeep
open Spec GoNum

variable {T : Type} [GoNum T]

theorem inRange6 {a b c d e f : Nat} {i : List Nat} (h : InRange [a, b, c, d, e, f] i) :
    i = [i.getD 0 0, i.getD 1 0, i.getD 2 0, i.getD 3 0, i.getD 4 0, i.getD 5 0] ∧ i.getD 0 0 < a ∧ i.getD 1 0 < b ∧ i.getD 2 0 < c ∧ i.getD 3 0 < d ∧
      i.getD 4 0 < e ∧ i.getD 5 0 < f := by
  have hl := inRange_length h
  match i, hl with
  | [x, y, z, u, v, w], _ =>
    simp only [InRange, List.forall₂_cons, List.forall₂_nil_left_iff] at h
    exact ⟨rfl, h.1, h.2.1, h.2.2.1, h.2.2.2.1, h.2.2.2.2.1, h.2.2.2.2.2.1⟩

theorem inRange4 {a b c d : Nat} {i : List Nat} (h : InRange [a, b, c, d] i) :
    i = [i.getD 0 0, i.getD 1 0, i.getD 2 0, i.getD 3 0] ∧ i.getD 0 0 < a ∧ i.getD 1 0 < b ∧ i.getD 2 0 < c ∧ i.getD 3 0 < d := by
  have hl := inRange_length h
  match i, hl with
  | [x, y, z, u], _ =>
    simp only [InRange, List.forall₂_cons, List.forall₂_nil_left_iff] at h
    exact ⟨rfl, h.1, h.2.1, h.2.2.1, h.2.2.2.1⟩

theorem inRange2' {a b : Nat} {i : List Nat} (h : InRange [a, b] i) : i = [i.getD 0 0, i.getD 1 0] ∧ i.getD 0 0 < a ∧ i.getD 1 0 < b := by
  have hl := inRange_length h
  match i, hl with
  | [x, y], _ =>
    simp only [InRange, List.forall₂_cons, List.forall₂_nil_left_iff] at h
    exact ⟨rfl, h.1, h.2.1⟩

theorem mk4 {a b c d i j k l : Nat} (h1 : i < a) (h2 : j < b) (h3 : k < c) (h4 : l < d) : InRange [a, b, c, d] [i, j, k, l] :=
  .cons h1 (.cons h2 (.cons h3 (.cons h4 .nil)))

theorem window_lt {c k s p x : Nat} (hk : k ≤ c) (hp : p < (c - k) / s + 1) (hx : x < k) : p * s + x < c := by
  have : p * s ≤ c - k := le_trans (Nat.mul_le_mul_right s (by omega)) (Nat.div_mul_le_self _ _)
  omega

theorem convPre_spec {nf k st : Nat} {a : Activation T} {si : List Nat} (hf : (LSpec.conv nf k k st st a : LSpec T).fits si) (safe : Prop) :
    PreSpec (T := T) (LayerM.convPre k st st si ((LSpec.conv nf k k st st a : LSpec T).outShape si)) (convBack k k st st) si
      ((LSpec.conv nf k k st st a : LSpec T).outShape si) [nf, si.getD 0 0, k, k] safe := by
  obtain ⟨hl3, hst, _, hk, _, hkc, hke, _, _⟩ := hf
  intro N dif w der pdif rM wM dM pM rr rw' rd rp sr sw sd sp nd dis
  obtain ⟨ch, hch⟩ : ∃ x, x = si.getD 0 0 := ⟨_, rfl⟩
  obtain ⟨c, hc⟩ : ∃ x, x = si.getD 1 0 := ⟨_, rfl⟩
  obtain ⟨e, he⟩ : ∃ x, x = si.getD 2 0 := ⟨_, rfl⟩
  have hsi : si = [ch, c, e] := by rw [hch, hc, he]; exact shape3 hl3
  obtain ⟨c', hc'⟩ : ∃ x, x = (c - k) / st + 1 := ⟨_, rfl⟩
  obtain ⟨e', he'⟩ : ∃ x, x = (e - k) / st + 1 := ⟨_, rfl⟩
  have hso : (LSpec.conv nf k k st st a : LSpec T).outShape si = [nf, c', e'] := by rw [hsi, hc', he']; rfl
  rw [hso] at sr ⊢
  rw [← hc] at hkc
  rw [← he] at hke
  rw [← hch] at sw
  rw [hsi] at sd sp ⊢
  obtain ⟨o, ho⟩ : ∃ o : List Nat → List Nat, o = fun k => [k.getD 0 0, k.getD 1 0, k.getD 2 0] := ⟨_, rfl⟩
  obtain ⟨u, hu⟩ : ∃ o : List Nat → List Nat, o = fun k => [k.getD 0 0, k.getD 3 0, k.getD 4 0, k.getD 5 0] := ⟨_, rfl⟩
  obtain ⟨t, ht⟩ : ∃ t : List Nat → List Nat, t = fun k => [k.getD 3 0, k.getD 1 0 * st + k.getD 4 0, k.getD 2 0 * st + k.getD 5 0] := ⟨_, rfl⟩
  obtain ⟨V, hV⟩ : ∃ V : List Nat → (Ptr → T) → T, V = fun k v => GoNum.mul (GoNum.mul (v (cell rM (o k))) (v (cell wM (u k)))) (v (cell dM (t k))) := ⟨_, rfl⟩
  obtain ⟨F, hF⟩ : ∃ F : List Nat → (Ptr → T) → Ptr → T, F = fun k v =>
    Function.update v (cell pM (t k)) (GoNum.add (v (cell pM (t k))) (V k v)) := ⟨_, rfl⟩
  have htr : ∀ i, InRange [nf, c', e', ch, k, k] i → InRange [ch, c, e] (t i) := by
    intro i hi
    obtain ⟨_, h0, h1, h2, h3, h4, h5⟩ := inRange6 hi
    rw [ht]
    exact mk3 h3 (window_lt hkc (by omega) h4) (window_lt hke (by omega) h5)
  have hor : ∀ i, InRange [nf, c', e', ch, k, k] i → InRange [nf, c', e'] (o i) := by
    intro i hi
    obtain ⟨_, h0, h1, h2, h3, h4, h5⟩ := inRange6 hi
    rw [ho]; exact mk3 h0 h1 h2
  have hur : ∀ i, InRange [nf, c', e', ch, k, k] i → InRange [nf, ch, k, k] (u i) := by
    intro i hi
    obtain ⟨_, h0, h1, h2, h3, h4, h5⟩ := inRange6 hi
    rw [hu]; exact mk4 h0 h3 h4 h5
  obtain ⟨B, hB⟩ : ∃ B : Nat → Nat → Nat → Nat → Nat → Nat → Ptr → Run T Unit, B = fun f px py i kx ky d => (do
              let ix := px * st + kx
              let iy := py * st + ky
              if ix ≥ [ch, c, e].getD 1 0 ∨ iy ≥ [ch, c, e].getD 2 0 then pure ()
              else
                let wt ← Run.operand w [f, i, kx, ky]
                let dw ← Run.emit (.mul d wt)
                let pder ← Run.operand der [i, ix, iy]
                Run.push (.asg dw (.mul dw pder))
                let pd ← Run.operand pdif [i, ix, iy]
                Run.push (.asg pd (.add pd dw))) := ⟨_, rfl⟩
  have body : ∀ f < nf, ∀ px < c', ∀ py < e', ∀ i < ch, ∀ kx < k, ∀ ky < k, ∀ lo, N.store.heap.next ≤ lo →
      ∃ hi ops, Em N (B f px py i kx ky (cell rM [f, px, py])) lo hi () ops ∧
        Effect N.store.heap.next lo hi (· ∈ pM.ops) ops (fun v => (allIdx []).foldl (fun v z => F (f :: px :: py :: i :: kx :: ky :: z) v) v) safe := by
    intro f hf px hpx py hpy i hi kx hkx ky hky lo hlo
    have hr : InRange [nf, c', e', ch, k, k] [f, px, py, i, kx, ky] := .cons hf (.cons hpx (.cons hpy (mk3 hi hkx hky)))
    have h1 := htr _ hr
    have h2 := hor _ hr
    have h3 := hur _ hr
    rw [ht] at h1; rw [ho] at h2; rw [hu] at h3
    simp only [List.getD_cons_zero, List.getD_cons_succ] at h1 h2 h3
    obtain ⟨p1, c1⟩ := rp.good.valid _ (cell_mem rp.good (by rw [sp]; exact h1))
    obtain ⟨p2, c2⟩ := rd.good.valid _ (cell_mem rd.good (by rw [sd]; exact h1))
    obtain ⟨p3, c3⟩ := rr.good.valid _ (cell_mem rr.good (by rw [sr]; exact h2))
    obtain ⟨p4, c4⟩ := rw'.good.valid _ (cell_mem rw'.good (by rw [sw]; exact h3))
    have hb1 := window_lt (s := st) hkc (by omega : px < _) hkx
    have hb2 := window_lt (s := st) hke (by omega : py < _) hky
    refine ⟨lo + 1, [.asg lo (.mul (cell rM [f, px, py]) (cell wM [f, i, kx, ky])), .asg lo (.mul lo (cell dM [i, px * st + kx, py * st + ky]))] ++
      [.asg (cell pM [i, px * st + kx, py * st + ky]) (.add (cell pM [i, px * st + kx, py * st + ky]) lo)], ?_, ?_⟩
    · rw [hB]
      dsimp only
      rw [if_neg (by simp only [List.getD_cons_zero, List.getD_cons_succ]; omega)]
      exact Em.bind (o1 := []) (Em.operand rw'.mat rw'.good (by rw [sw]; exact h3) _) (Em.bind (o1 := [_]) (Em.emit _ _)
        (Em.bind (o1 := []) (Em.operand rd.mat rd.good (by rw [sd]; exact h1) _) (Em.bind (o1 := [_]) (Em.push _ _)
          (Em.bind (o1 := []) (Em.operand rp.mat rp.good (by rw [sp]; exact h1) _) (Em.push _ _)))))
    · refine (Effect.asg (E := fun v => GoNum.add (v (cell pM [i, px * st + kx, py * st + ky])) (V [f, px, py, i, kx, ky] v)) (by omega) hlo (by simp) (fun _ op hop => ?_) (fun _ => ?_)
          (cell_mem rp.good (by rw [sp]; exact h1)) (fun v => ?_) fun v v' hv => ?_).one fun v => ?_
      · simp only [List.mem_cons, List.not_mem_nil, or_false] at hop
        rcases hop with rfl | rfl
        · exact ⟨by omega, by simp [Rhs.reads]; omega, trivial, trivial⟩
        · exact ⟨by omega, by simp [Rhs.reads]; omega, trivial, trivial⟩
      · exact ⟨p1, by simp [Rhs.reads]; omega, trivial, trivial⟩
      · rw [hV, ht, ho, hu]
        simp only [execV_asg, execV_nil, Rhs.ev, List.getD_cons_zero, List.getD_cons_succ]
        have x1 : cell pM [i, px * st + kx, py * st + ky] ≠ lo := by omega
        have x2 : cell dM [i, px * st + kx, py * st + ky] ≠ lo := by omega
        rw [Function.update_self, Function.update_of_ne x1, Function.update_of_ne x1, Function.update_self, Function.update_of_ne x2]
      · rw [hV, ht, ho, hu]
        simp only [List.getD_cons_zero, List.getD_cons_succ, hv _ c1, hv _ c2, hv _ c3, hv _ c4]
      · rw [hF, ht]
        simp only [List.getD_cons_zero, List.getD_cons_succ]
  have loops := Effect.range (N := N) (base := N.store.heap.next) (W := (· ∈ pM.ops)) (safe := safe) (n := nf) (s := [c', e', ch, k, k]) (F := F)
    (f := fun f => Run.each (List.range c') fun px => Run.each (List.range e') fun py => do
        let d ← Run.operand dif [f, px, py]
        Run.each (List.range ch) fun i => Run.each (List.range k) fun kx => Run.each (List.range k) fun ky => B f px py i kx ky d)
    (fun f hf => Effect.range fun px hpx => Effect.range fun py hpy lo hlo => by
      obtain ⟨hi, ops, m, A⟩ := Effect.range (N := N) (base := N.store.heap.next) (W := (· ∈ pM.ops)) (safe := safe) (n := ch) (s := [k, k])
        (F := fun z v => F (f :: px :: py :: z) v)
        (f := fun i => Run.each (List.range k) fun kx => Run.each (List.range k) fun ky => B f px py i kx ky (cell rM [f, px, py]))
        (fun i hi => Effect.range fun kx hkx => Effect.range fun ky hky => body f hf px hpx py hpy i hi kx hkx ky hky) lo hlo
      exact ⟨hi, ops, Em.bind (o1 := []) (Em.operand rr.mat rr.good (by rw [sr]; exact mk3 hf hpx hpy) _) m, A⟩) _ le_rfl
  obtain ⟨hi, ops, m, A⟩ := loops
  have fold : ∀ v q, (allIdx [nf, c', e', ch, k, k]).foldl (fun v z => F z v) v q =
      ((allIdx [nf, c', e', ch, k, k]).filter fun i => cell pM (t i) = q).foldl (fun s i => add s (V i v)) (v q) := by
    intro v q
    rw [hF]
    refine foldl_add (fun i => cell pM (t i)) V q _ v fun i hi v v' hv => ?_
    have hi := mem_allIdx.1 hi
    have ag : ∀ q, q ∉ pM.ops → v q = v' q := fun q hq => hv q fun j hj e => hq (e ▸ cell_mem rp.good (by rw [sp]; exact htr j (mem_allIdx.1 hj)))
    rw [hV]
    dsimp only
    rw [ag _ fun h => (dis _ h).1 (cell_mem rr.good (by rw [sr]; exact hor i hi)), ag _ fun h => (dis _ h).2.1 (cell_mem rw'.good (by rw [sw]; exact hur i hi)),
      ag _ fun h => (dis _ h).2.2 (cell_mem rd.good (by rw [sd]; exact htr i hi))]
  refine ⟨fun v => (allIdx [nf, c', e', ch, k, k]).foldl (fun v z => F z v) v, hi, ops, ?_, A, fun v q hq => ?_, fun h r W D x Hr HW HD hx hz idx hi => ?_⟩
  · rw [hB] at m; exact m
  · dsimp only
    rw [fold, List.filter_eq_nil_iff.2]
    · rfl
    · intro i hi
      simp only [decide_eq_true_eq]
      rintro rfl
      exact hq (cell_mem rp.good (by rw [sp]; exact htr i (mem_allIdx.1 hi)))
  · dsimp only
    rw [fold, hz _ (cell_mem rp.good (by rw [sp]; exact hi))]
    unfold convBack
    dsimp only
    rw [← Hr.shape, sr, hx]
    show _ = List.foldl _ _ (List.filter _ (allIdx [nf, c', e', ch, k, k]))
    have e1 : ((allIdx [nf, c', e', ch, k, k]).filter fun i => cell pM (t i) = cell pM idx) =
        (allIdx [nf, c', e', ch, k, k]).filter fun z => z.getD 3 0 = idx.getD 0 0 ∧ z.getD 1 0 * st + z.getD 4 0 = idx.getD 1 0 ∧ z.getD 2 0 * st + z.getD 5 0 = idx.getD 2 0 := by
      refine List.filter_congr fun i hi' => ?_
      have hi' := mem_allIdx.1 hi'
      rw [decide_eq_decide]
      have hidx := (inRange3 hi).1
      constructor
      · intro h
        have := cell_inj rp.good nd (by rw [sp]; exact htr i hi') (by rw [sp]; exact hi) h
        rw [ht] at this
        rw [← this]; exact ⟨rfl, rfl, rfl⟩
      · rintro ⟨h1, h2, h3⟩
        rw [ht]
        dsimp only
        rw [h1, h2, h3, ← hidx]
    rw [e1]
    refine List.foldl_ext _ _ _ fun s i hi' => ?_
    obtain ⟨m1, m2⟩ := List.mem_filter.1 hi'
    have m1 := mem_allIdx.1 m1
    simp only [decide_eq_true_eq] at m2
    have ht' : t i = idx := by
      rw [ht]
      dsimp only
      rw [m2.1, m2.2.1, m2.2.2, ← (inRange3 hi).1]
    rw [hV]
    dsimp only
    rw [holds_cell Hr (by rw [sr]; exact hor i m1), holds_cell HW (by rw [sw]; exact hur i m1), holds_cell HD (by rw [sd]; exact htr i m1), ht', ho, hu]
    dsimp only
    have e3 : i.take 3 = [i.getD 0 0, i.getD 1 0, i.getD 2 0] := by
      have := (inRange6 m1).1
      rw [this]; rfl
    rw [e3]

/-! ### sums over grids -/

theorem Vals.grid2 {N : World T} {base n1 n2 : Nat} {f : Nat → Nat → Run T Ptr} {e : List Nat → (Ptr → T) → T} {safe : Prop}
    (h : ∀ i < n1, ∀ j < n2, ∀ lo, base ≤ lo → ∃ hi p ops, Em N (f i j) lo hi p ops ∧ Vals base lo hi ops [p] (fun v => [e [i, j] v]) safe)
    (lo : Nat) (hb : base ≤ lo) :
    ∃ hi xs ops, Em N (Run.collect (List.range n1) fun i => Run.collect (List.range n2) fun j => f i j) lo hi xs ops ∧
      Vals base lo hi ops xs.flatten (fun v => (allIdx [n1, n2]).map fun k => e k v) safe := by
  obtain ⟨hi, xs, ops, m, V⟩ := Vals.range (N := N) (base := base) (n := n1) (s := [n2]) (safe := safe)
    (f := fun i => Run.collect (List.range n2) fun j => f i j) (g := fun r => r) (e := e)
    (fun i hi lo hb => by
      obtain ⟨hi', xs, ops, m, V⟩ := Vals.range (N := N) (base := base) (n := n2) (s := []) (safe := safe)
        (f := fun j => f i j) (g := fun p => [p]) (e := fun k v => e (i :: k) v)
        (fun j hj lo hb => by
          obtain ⟨hi', p, ops, m, V⟩ := h i hi j hj lo hb
          exact ⟨hi', p, ops, m, V.one fun v => rfl⟩) lo hb
      refine ⟨hi', xs, ops, m, ?_⟩
      have e1 : xs.flatMap (fun p => [p]) = xs := by simp
      rw [e1] at V
      exact V) lo hb
  have hxs : xs.flatMap (fun r => r) = xs.flatten := by rw [List.flatMap_def]; simp
  rw [hxs] at V
  exact ⟨hi, xs, ops, m, V⟩

theorem Vals.grid3 {N : World T} {base n1 n2 n3 : Nat} {f : Nat → Nat → Nat → Run T Ptr} {e : List Nat → (Ptr → T) → T} {safe : Prop}
    (h : ∀ i < n1, ∀ j < n2, ∀ k < n3, ∀ lo, base ≤ lo → ∃ hi p ops, Em N (f i j k) lo hi p ops ∧ Vals base lo hi ops [p] (fun v => [e [i, j, k] v]) safe)
    (lo : Nat) (hb : base ≤ lo) :
    ∃ hi xs ops, Em N (Run.collect (List.range n1) fun i => Run.collect (List.range n2) fun j => Run.collect (List.range n3) fun k => f i j k) lo hi xs ops ∧
      Vals base lo hi ops xs.flatten.flatten (fun v => (allIdx [n1, n2, n3]).map fun k => e k v) safe := by
  obtain ⟨hi, xs, ops, m, V⟩ := Vals.range (N := N) (base := base) (n := n1) (s := [n2, n3]) (safe := safe)
    (f := fun i => Run.collect (List.range n2) fun j => Run.collect (List.range n3) fun k => f i j k) (g := fun r => r.flatten) (e := e)
    (fun i hi lo hb => Vals.grid2 (e := fun k v => e (i :: k) v) (fun j hj k hk => h i hi j hj k hk) lo hb) lo hb
  have hxs : xs.flatMap (fun r => r.flatten) = xs.flatten.flatten := by rw [List.flatMap_def, List.flatten_flatten]
  rw [hxs] at V
  exact ⟨hi, xs, ops, m, V⟩

theorem Vals.ne_nil {base lo hi : Nat} {ops : List (Op T)} {ps : List Ptr} {s : List Nat} {e : List Nat → (Ptr → T) → T} {safe : Prop}
    (V : Vals base lo hi ops ps (fun v => (allIdx s).map fun k => e k v) safe) (hs : 0 < size s) : ps ≠ [] := by
  have hl := congrArg List.length (V.val fun _ => zero)
  simp only [List.length_map, allIdx_length] at hl
  rintro rfl
  simp at hl
  omega

/-! ### transposed convolutions -/

theorem spread_lt {n p s x k : Nat} (hp : p < n) (hx : x < k) : p * s + x < (n - 1) * s + k := by
  have : p * s ≤ (n - 1) * s := Nat.mul_le_mul_right s (by omega)
  omega

theorem deconvPre_spec {nf kw kh sx sy : Nat} {a : Activation T} {si : List Nat} (hf : (LSpec.deconv nf kw kh sx sy a : LSpec T).fits si) :
    PreSpec (T := T) (LayerM.deconvPre kw kh sx sy si ((LSpec.deconv nf kw kh sx sy a : LSpec T).outShape si)) (deconvBack kw kh sx sy) si
      ((LSpec.deconv nf kw kh sx sy a : LSpec T).outShape si) [nf, si.getD 0 0, kw, kh] ((LSpec.deconv nf kw kh sx sy a : LSpec T).bpSafe si) := by
  obtain ⟨hl3, h1p, h2p, _, _⟩ := hf
  intro N dif w der pdif rM wM dM pM rr rw' rd rp sr sw sd sp nd dis
  obtain ⟨ch, hch⟩ : ∃ x, x = si.getD 0 0 := ⟨_, rfl⟩
  obtain ⟨c, hc⟩ : ∃ x, x = si.getD 1 0 := ⟨_, rfl⟩
  obtain ⟨e, he⟩ : ∃ x, x = si.getD 2 0 := ⟨_, rfl⟩
  have hsi : si = [ch, c, e] := by rw [hch, hc, he]; exact shape3 hl3
  obtain ⟨c', hc'⟩ : ∃ x, x = (c - 1) * sx + kw := ⟨_, rfl⟩
  obtain ⟨e', he'⟩ : ∃ x, x = (e - 1) * sy + kh := ⟨_, rfl⟩
  have hso : (LSpec.deconv nf kw kh sx sy a : LSpec T).outShape si = [nf, c', e'] := by rw [hsi, hc', he']; rfl
  have hsafe : (LSpec.deconv nf kw kh sx sy a : LSpec T).bpSafe si → 0 < ch → 0 < size [nf, kw, kh] := by
    intro h h0
    rcases h with ⟨x1, x2, x3⟩ | h
    · simp only [size]
      exact Nat.mul_pos x1 (Nat.mul_pos x2 (by omega))
    · omega
  obtain ⟨safe, hs⟩ : ∃ p : Prop, p = (LSpec.deconv nf kw kh sx sy a : LSpec T).bpSafe si := ⟨_, rfl⟩
  rw [← hs] at hsafe ⊢
  rw [hso] at sr ⊢
  rw [← hc] at h1p
  rw [← he] at h2p
  rw [← hch] at sw
  rw [hsi] at sd sp ⊢
  obtain ⟨V, hV⟩ : ∃ V : List Nat → (Ptr → T) → T, V = fun i v => GoNum.mul (sum1 ((allIdx [nf, kw, kh]).map fun k => GoNum.mul
      (v (cell rM [k.getD 0 0, i.getD 1 0 * sx + k.getD 1 0, i.getD 2 0 * sy + k.getD 2 0]))
      (v (cell wM [k.getD 0 0, i.getD 0 0, k.getD 1 0, k.getD 2 0])))) (v (cell dM i)) := ⟨_, rfl⟩
  have hor : ∀ f < nf, ∀ x < c, ∀ y < e, ∀ kx < kw, ∀ ky < kh, InRange [nf, c', e'] [f, x * sx + kx, y * sy + ky] :=
    fun f hf x hx y hy kx hkx ky hky => mk3 hf (by rw [hc']; exact spread_lt hx hkx) (by rw [he']; exact spread_lt hy hky)
  obtain ⟨hi, ops, m, A⟩ := Effect.range (N := N) (base := N.store.heap.next) (W := (· ∈ pM.ops)) (safe := safe) (n := ch) (s := [c, e])
    (F := fun i v => Function.update v (cell pM i) (GoNum.add (v (cell pM i)) (V i v)))
    (f := fun inF => Run.each (List.range c) fun px => Run.each (List.range e) fun py => do
        let pder ← Run.operand der [inF, px, py]
        let pd ← Run.operand pdif [inF, px, py]
        let rows ← Run.collect (List.range nf) fun outF => Run.collect (List.range kw) fun kx => Run.collect (List.range kh) fun ky => do
              let d ← Run.operand dif [outF, px * sx + kx, py * sy + ky]
              let wt ← Run.operand w [outF, inF, kx, ky]
              Run.emit (.mul d wt)
        let nd ← Run.emit (.sum rows.flatten.flatten)
        Run.push (.asg nd (.mul nd pder))
        Run.push (.asg pd (.add pd nd)))
    (fun f hf => Effect.range fun x hx => Effect.range fun y hy lo hlo => by
      have hi3 : InRange [ch, c, e] [f, x, y] := mk3 hf hx hy
      obtain ⟨p1, c1⟩ := rp.good.valid _ (cell_mem rp.good (by rw [sp]; exact hi3))
      obtain ⟨p2, c2⟩ := rd.good.valid _ (cell_mem rd.good (by rw [sd]; exact hi3))
      obtain ⟨hi, xs, ops, m, Vs⟩ := Vals.grid3 (N := N) (base := N.store.heap.next) (n1 := nf) (n2 := kw) (n3 := kh) (safe := safe)
        (f := fun outF kx ky => (do
              let d ← Run.operand dif [outF, x * sx + kx, y * sy + ky]
              let wt ← Run.operand w [outF, f, kx, ky]
              Run.emit (.mul d wt)))
        (e := fun k v => GoNum.mul (v (cell rM [k.getD 0 0, x * sx + k.getD 1 0, y * sy + k.getD 2 0])) (v (cell wM [k.getD 0 0, f, k.getD 1 0, k.getD 2 0])))
        (fun i hi j hj k hk lo hb => by
          have g1 : InRange rM.shape [i, x * sx + j, y * sy + k] := by rw [sr]; exact hor i hi x hx y hy j hj k hk
          have g2 : InRange wM.shape [i, f, j, k] := by rw [sw]; exact mk4 hi hf hj hk
          exact ⟨lo + 1, lo, _, Em.bind (o1 := []) (Em.operand rr.mat rr.good g1 _) (Em.bind (o1 := []) (Em.operand rw'.mat rw'.good g2 _) (Em.emit _ _)),
            Vals.mul (rr.good.valid _ (cell_mem rr.good g1)) (rw'.good.valid _ (cell_mem rw'.good g2)) hb⟩) lo hlo
      have hle := Vs.le
      refine ⟨hi + 1, (ops ++ [.asg hi (.sum xs.flatten.flatten), .asg hi (.mul hi (cell dM [f, x, y]))]) ++
        [.asg (cell pM [f, x, y]) (.add (cell pM [f, x, y]) hi)], ?_, ?_⟩
      · rw [List.append_assoc]
        exact Em.bind (o1 := []) (Em.operand rd.mat rd.good (by rw [sd]; exact hi3) lo)
          (Em.bind (o1 := []) (Em.operand rp.mat rp.good (by rw [sp]; exact hi3) _) (Em.bind m
            (Em.bind (o1 := [_]) (Em.emit _ _) (Em.bind (o1 := [_]) (Em.push _ _) (Em.push _ _)))))
      · have hd : ∀ q ∈ dsts (ops ++ [.asg hi (.sum xs.flatten.flatten), .asg hi (.mul hi (cell dM [f, x, y]))]), lo ≤ q ∧ q < hi + 1 := by
          intro q hq
          rw [dsts_append, List.mem_append] at hq
          rcases hq with hq | hq
          · have := Vs.dst q hq; omega
          · simp only [dsts_asg, dsts_nil, List.mem_cons, List.not_mem_nil, or_false] at hq; omega
        have fr : ∀ v q, q < N.store.heap.next → execV ops v q = v q := fun v q hq => execV_frame fun h => by have := Vs.dst q h; omega
        refine (Effect.asg (E := fun v => GoNum.add (v (cell pM [f, x, y])) (V [f, x, y] v)) (by omega) hlo hd (fun hs op hop => ?_) (fun _ => ?_)
          (cell_mem rp.good (by rw [sp]; exact hi3)) (fun v => ?_) fun v v' hv => ?_).one fun v => rfl
        · rcases List.mem_append.1 hop with hop | hop
          · exact Vs.fine hs op hop
          · simp only [List.mem_cons, List.not_mem_nil, or_false] at hop
            rcases hop with rfl | rfl
            · exact ⟨by omega, fun q hq => (Vs.rng q hq).1, Vs.ne_nil (hsafe hs (by omega)), trivial⟩
            · exact ⟨by omega, by simp [Rhs.reads]; omega, trivial, trivial⟩
        · exact ⟨p1, by simp [Rhs.reads]; omega, trivial, trivial⟩
        · rw [hV]
          have x1 : cell pM [f, x, y] ≠ hi := by omega
          have x2 : cell dM [f, x, y] ≠ hi := by omega
          simp only [execV_append, execV_asg, execV_nil, Rhs.ev]
          rw [Function.update_self, Function.update_of_ne x1, Function.update_of_ne x1, Function.update_self, Function.update_of_ne x2, Vs.val, fr _ _ c1, fr _ _ c2]
          rfl
        · rw [hV]
          have h1 := Vs.loc v v' hv
          simp only [List.getD_cons_zero, List.getD_cons_succ, hv _ c1, hv _ c2]
          rw [h1]) _ le_rfl
  have key := fun v => foldl_cells rp.good nd (E := fun i v => GoNum.add (v (cell pM i)) (V i v)) (fun i hi v v' hv => by
    rw [sp] at hi
    obtain ⟨_, h0, h1, h2⟩ := inRange3 hi
    rw [hV]
    dsimp only
    rw [hv _ (Or.inr rfl), hv _ (Or.inl fun h => (dis _ h).2.2 (cell_mem rd.good (by rw [sd]; exact hi)))]
    congr 3
    refine List.map_congr_left fun k hk => ?_
    obtain ⟨_, k0, k1, k2⟩ := inRange3 (mem_allIdx.1 hk)
    rw [hv _ (Or.inl fun h => (dis _ h).1 (cell_mem rr.good (by rw [sr]; exact hor _ k0 _ h1 _ h2 _ k1 _ k2))),
      hv _ (Or.inl fun h => (dis _ h).2.1 (cell_mem rw'.good (by rw [sw]; exact mk4 k0 h0 k1 k2)))]) v
  rw [sp] at key
  refine ⟨_, hi, ops, m, A, fun v q hq => (key v).1 q hq, fun h r W D x Hr HW HD hx hz idx hi => ?_⟩
  rw [(key h.val).2 idx hi, hz _ (cell_mem rp.good (by rw [sp]; exact hi)), hV]
  unfold deconvBack
  dsimp only
  obtain ⟨_, h0, h1, h2⟩ := inRange3 hi
  rw [holds_cell HD (by rw [sd]; exact hi), ← Hr.shape, sr]
  congr 3
  refine List.map_congr_left fun k hk => ?_
  obtain ⟨_, k0, k1, k2⟩ := inRange3 (mem_allIdx.1 hk)
  rw [holds_cell Hr (by rw [sr]; exact hor _ k0 _ h1 _ h2 _ k1 _ k2), holds_cell HW (by rw [sw]; exact mk4 k0 h0 k1 k2)]

/-! ### new weights -/

/-- one step of the loops that compute the new weights -/
def updF (L2 : List Nat) (u : List Nat → List Nat) (a b : List Nat → List Nat → List Nat) (iM aM wM mM nM : Mat) (k : List Nat) (v : Ptr → T) : Ptr → T :=
  Function.update (Function.update v (cell nM (u k)) (sum1 [v (cell wM (u k)),
    sum1 ((allIdx L2).map fun o => GoNum.mul (v (cell aM (a k o))) (v (cell iM (b k o)))), v (cell mM (u k))])) (cell mM (u k))
    (sum1 ((allIdx L2).map fun o => GoNum.mul (v (cell aM (a k o))) (v (cell iM (b k o)))))

theorem Effect.upd {base lo hi : Nat} {W : Ptr → Prop} {ops : List (Op T)} {ps : List Ptr} {e : (Ptr → T) → List T} {wt n m : Ptr}
    (V : Vals base lo hi ops ps e True) (hb : base ≤ lo) (hne : ps ≠ []) (hw : 0 < wt ∧ wt < base) (hn : 0 < n ∧ n < base) (hm : 0 < m ∧ m < base)
    (Wn : W n) (Wm : W m) :
    Effect base lo (hi + 1) W (ops ++ [.asg hi (.sum ps), .asg n (.sum [wt, hi, m]), .asg m (.set hi)])
      (fun v => Function.update (Function.update v n (sum1 [v wt, sum1 (e v), v m])) m (sum1 (e v))) True := by
  have le := V.le
  have fr : ∀ v q, q < base → execV ops v q = v q := fun v q hq => execV_frame fun h => by have := V.dst q h; omega
  refine ⟨by omega, fun q hq => ?_, fun _ op hop => ?_, fun v q hq => ?_, fun v v' hv q hq => ?_⟩
  · rw [dsts_append, List.mem_append] at hq
    rcases hq with hq | hq
    · left; have := V.dst q hq; omega
    · simp only [dsts_asg, dsts_nil, List.mem_cons, List.not_mem_nil, or_false] at hq
      rcases hq with rfl | rfl | rfl
      · left; omega
      · exact Or.inr Wn
      · exact Or.inr Wm
  · rcases List.mem_append.1 hop with hop | hop
    · exact V.fine trivial op hop
    · simp only [List.mem_cons, List.not_mem_nil, or_false] at hop
      rcases hop with rfl | rfl | rfl
      · exact ⟨by omega, fun q hq => (V.rng q hq).1, hne, trivial⟩
      · exact ⟨hn.1, by simp [Rhs.reads]; omega, by simp [ArgsNonempty], trivial⟩
      · exact ⟨hm.1, by simp [Rhs.reads]; omega, trivial, trivial⟩
  · simp only [execV_append, execV_asg, execV_nil, Rhs.ev, List.map_cons, List.map_nil]
    have x1 : hi ≠ n := by omega
    have x2 : wt ≠ hi := by omega
    have x3 : m ≠ hi := by omega
    have x4 : q ≠ hi := by omega
    simp only [Function.update_apply, x4, x1, x2, x3, if_true, if_false, V.val, fr v _ hw.2, fr v _ hm.2, fr v _ hq]
  · simp only [Function.update_apply, V.loc v v' hv, hv _ hw.2, hv _ hm.2, hv _ hq]

theorem updSpec_loops {upd : Nat → Nat → Nat → Nat → Nat → Run T Unit} {wts : T → T → STensor T → STensor T → STensor T → STensor T} {si so sw : List Nat}
    (L L2 : List Nat) (u : List Nat → List Nat) (a b : List Nat → List Nat → List Nat)
    (hu : ∀ k, InRange L k → InRange sw (u k)) (hinj : ∀ k k', InRange L k → InRange L k' → u k = u k' → k = k')
    (hsur : ∀ idx, InRange sw idx → ∃ k, InRange L k ∧ u k = idx)
    (ha : ∀ k o, InRange L k → InRange L2 o → InRange so (a k o)) (hb : ∀ k o, InRange L k → InRange L2 o → InRange si (b k o))
    (hv : ∀ k, InRange L k → ∀ al mu d x W, d.shape = so → x.shape = si → (wts al mu d x W).get (u k) =
      sum1 [W.get (u k), sum1 ((allIdx L2).map fun o => GoNum.mul (GoNum.mul (d.get (a k o)) al) (x.get (b k o))), GoNum.mul zero mu])
    (hrun : ∀ (N : World T) (inp da w wm nw : Nat) (iM aM wM mM nM : Mat), Ready N inp iM → Ready N da aM → Ready N w wM → Ready N wm mM → Ready N nw nM →
      iM.shape = si → aM.shape = so → wM.shape = sw → mM.shape = sw → nM.shape = sw →
      ∃ hi ops, Em N (upd inp da w wm nw) N.store.heap.next hi () ops ∧
        Effect N.store.heap.next N.store.heap.next hi (fun q => q ∈ mM.ops ∨ q ∈ nM.ops) ops
          (fun v => (allIdx L).foldl (fun v k => updF L2 u a b iM aM wM mM nM k v) v) True) :
    UpdSpec upd wts si so sw True := by
  intro N inp da w wm nw iM aM wM mM nM ri ra rw' rm rn si' sa sw' sm sn ndm ndn dmn dis
  obtain ⟨hi, ops, m, A⟩ := hrun N inp da w wm nw iM aM wM mM nM ri ra rw' rm rn si' sa sw' sm sn
  have hmc : ∀ k, InRange L k → cell mM (u k) ∈ mM.ops := fun k hk => cell_mem rm.good (by rw [sm]; exact hu k hk)
  have hnc : ∀ k, InRange L k → cell nM (u k) ∈ nM.ops := fun k hk => cell_mem rn.good (by rw [sn]; exact hu k hk)
  have key := foldl_own (l := allIdx L) (F := fun k => updF (T := T) L2 u a b iM aM wM mM nM k) (t := fun k q => q = cell nM (u k) ∨ q = cell mM (u k))
    (fun k _ v q hq => by
      unfold updF
      rw [Function.update_of_ne (fun e => hq (Or.inr e)), Function.update_of_ne (fun e => hq (Or.inl e))])
    (by
      have : (allIdx L).Pairwise fun i j => i ≠ j := nodup_allIdx _
      refine this.imp_of_mem fun {i j} hi hj hne q h1 h2 => hne ?_
      have hi := mem_allIdx.1 hi
      have hj := mem_allIdx.1 hj
      refine hinj i j hi hj ?_
      rcases h1 with rfl | rfl <;> rcases h2 with h | h
      · exact cell_inj rn.good ndn (by rw [sn]; exact hu i hi) (by rw [sn]; exact hu j hj) h
      · exact absurd (hnc i hi) (dmn _ (h ▸ hmc j hj))
      · exact absurd (hnc j hj) (dmn _ (h ▸ hmc i hi))
      · exact cell_inj rm.good ndm (by rw [sm]; exact hu i hi) (by rw [sm]; exact hu j hj) h)
    (fun k hk v v' hvv q hq => by
      have hk := mem_allIdx.1 hk
      have ag : ∀ q, (q ∉ mM.ops ∧ q ∉ nM.ops) ∨ q = cell nM (u k) ∨ q = cell mM (u k) → v q = v' q := by
        intro q hq
        refine hvv q fun j hj htj => ?_
        rcases hq with hq | hq
        · rcases htj with rfl | rfl
          · exact absurd (hnc j (mem_allIdx.1 hj)) hq.2
          · exact absurd (hmc j (mem_allIdx.1 hj)) hq.1
        · exact hq
      have agi : ∀ q, q ∈ iM.ops ∨ q ∈ aM.ops ∨ q ∈ wM.ops → v q = v' q := by
        intro q hq
        refine ag q (Or.inl ⟨fun h => ?_, fun h => ?_⟩)
        · obtain ⟨x1, x2, x3⟩ := dis q (Or.inl h)
          rcases hq with hq | hq | hq
          · exact x1 hq
          · exact x2 hq
          · exact x3 hq
        · obtain ⟨x1, x2, x3⟩ := dis q (Or.inr h)
          rcases hq with hq | hq | hq
          · exact x1 hq
          · exact x2 hq
          · exact x3 hq
      have hS : ((allIdx L2).map fun o => GoNum.mul (v (cell aM (a k o))) (v (cell iM (b k o)))) =
          (allIdx L2).map fun o => GoNum.mul (v' (cell aM (a k o))) (v' (cell iM (b k o))) :=
        List.map_congr_left fun o ho => by
          have ho := mem_allIdx.1 ho
          rw [agi _ (Or.inr (Or.inl (cell_mem ra.good (by rw [sa]; exact ha k o hk ho)))), agi _ (Or.inl (cell_mem ri.good (by rw [si']; exact hb k o hk ho)))]
      unfold updF
      rw [hS, agi _ (Or.inr (Or.inr (cell_mem rw'.good (by rw [sw']; exact hu k hk)))), ag _ (Or.inr (Or.inr rfl))]
      simp only [Function.update_apply, ag q (Or.inr hq)])
  refine ⟨_, hi, ops, m, A, fun v q h1 h2 => (key v).1 q fun k hk ht => ?_, fun h d x W al mu Ha Hi HW hz idx hidx => ?_⟩
  · rcases ht with rfl | rfl
    · exact h2 (hnc k (mem_allIdx.1 hk))
    · exact h1 (hmc k (mem_allIdx.1 hk))
  · obtain ⟨k, hk, rfl⟩ := hsur idx hidx
    rw [(key h.val).2 k (mem_allIdx.2 hk) _ (Or.inl rfl)]
    have hds : d.shape = so := by rw [← sa]; exact Ha.shape.symm
    have hxs : x.shape = si := by rw [← si']; exact Hi.shape.symm
    rw [hv k hk al mu d x W hds hxs]
    have hne : cell nM (u k) ≠ cell mM (u k) := fun e => dmn _ (hmc k hk) (e ▸ hnc k hk)
    unfold updF
    rw [Function.update_of_ne hne, Function.update_self, hz _ (hmc k hk), holds_cell HW (by rw [sw']; exact hidx)]
    congr 3
    congr 1
    refine List.map_congr_left fun o ho => ?_
    have ho := mem_allIdx.1 ho
    rw [holds_cell Ha (by rw [sa]; exact ha k o hk ho), holds_cell Hi (by rw [si']; exact hb k o hk ho)]
    rfl

theorem convUpdate_spec {nf k st : Nat} {a : Activation T} {si : List Nat} (hf : (LSpec.conv nf k k st st a : LSpec T).fits si) :
    UpdSpec (T := T) (LayerM.convUpdate k k st si ((LSpec.conv nf k k st st a : LSpec T).outShape si)) (convWeights st st) si
      ((LSpec.conv nf k k st st a : LSpec T).outShape si) [nf, si.getD 0 0, k, k] True := by
  obtain ⟨hl3, hst, _, hk, _, hkc, hke, _, _⟩ := hf
  obtain ⟨ch, hch⟩ : ∃ x, x = si.getD 0 0 := ⟨_, rfl⟩
  obtain ⟨c, hc⟩ : ∃ x, x = si.getD 1 0 := ⟨_, rfl⟩
  obtain ⟨e, he⟩ : ∃ x, x = si.getD 2 0 := ⟨_, rfl⟩
  have hsi : si = [ch, c, e] := by rw [hch, hc, he]; exact shape3 hl3
  obtain ⟨c', hc'⟩ : ∃ x, x = (c - k) / st + 1 := ⟨_, rfl⟩
  obtain ⟨e', he'⟩ : ∃ x, x = (e - k) / st + 1 := ⟨_, rfl⟩
  have hso : (LSpec.conv nf k k st st a : LSpec T).outShape si = [nf, c', e'] := by rw [hsi, hc', he']; rfl
  rw [hso, ← hch]
  rw [← hc] at hkc
  rw [← he] at hke
  rw [hsi]
  have hin : ∀ i < ch, ∀ x < c', ∀ y < e', ∀ kx < k, ∀ ky < k, InRange [ch, c, e] [i, x * st + kx, y * st + ky] :=
    fun i hi x hx y hy kx hkx ky hky => mk3 hi (window_lt hkc (by omega) hkx) (window_lt hke (by omega) hky)
  refine updSpec_loops [nf, ch, k, k] [c', e'] (fun k => k) (fun k o => k.getD 0 0 :: o)
    (fun k o => [k.getD 1 0, o.getD 0 0 * st + k.getD 2 0, o.getD 1 0 * st + k.getD 3 0]) (fun k h => h) (fun _ _ _ _ h => h) (fun i h => ⟨i, h, rfl⟩)
    (fun k o hk ho => .cons (inRange4 hk).2.1 ho) (fun k o hk ho => ?_) (fun k hk al mu d x W hd hx => ?_) fun N inp da w wm nw iM aM wM mM nM ri ra rw' rm rn si' sa sw' sm sn => ?_
  · obtain ⟨_, h0, h1, h2, h3⟩ := inRange4 hk
    obtain ⟨_, o0, o1⟩ := inRange2' ho
    exact hin _ h1 _ o0 _ o1 _ h2 _ h3
  · unfold convWeights
    rw [hd]
    rfl
  · refine Effect.range (F := fun z v => updF _ _ _ _ iM aM wM mM nM z v) (fun f hf => Effect.range fun i hi => Effect.range fun kx hkx => Effect.range fun ky hky lo hlo => ?_) _ le_rfl
    have h4 : InRange [nf, ch, k, k] [f, i, kx, ky] := mk4 hf hi hkx hky
    have vw := rw'.good.valid _ (cell_mem rw'.good (by rw [sw']; exact h4))
    have vm := rm.good.valid _ (cell_mem rm.good (by rw [sm]; exact h4))
    have vn := rn.good.valid _ (cell_mem rn.good (by rw [sn]; exact h4))
    obtain ⟨hi', xs, ops, m, Vs⟩ := Vals.grid2 (N := N) (base := N.store.heap.next) (n1 := c') (n2 := e') (safe := True)
      (f := fun ox oy => (do
          let input ← if ox * st + kx < [ch, c, e].getD 1 0 ∨ oy * st + ky < [ch, c, e].getD 2 0
            then Run.operand inp [i, ox * st + kx, oy * st + ky] else Run.scalar zero
          let d ← Run.operand da [f, ox, oy]
          Run.emit (.mul d input)))
      (e := fun o v => GoNum.mul (v (cell aM (f :: o))) (v (cell iM [i, o.getD 0 0 * st + kx, o.getD 1 0 * st + ky])))
      (fun ox hox oy hoy lo hb => by
        have g1 : InRange iM.shape [i, ox * st + kx, oy * st + ky] := by rw [si']; exact hin i hi ox hox oy hoy kx hkx ky hky
        have g2 : InRange aM.shape [f, ox, oy] := by rw [sa]; exact mk3 hf hox hoy
        rw [if_pos (Or.inl (by simp only [List.getD_cons_zero, List.getD_cons_succ]; exact window_lt hkc (by omega) hkx))]
        exact ⟨lo + 1, lo, _, Em.bind (o1 := []) (Em.operand ri.mat ri.good g1 _) (Em.bind (o1 := []) (Em.operand ra.mat ra.good g2 _) (Em.emit _ _)),
          Vals.mul (ra.good.valid _ (cell_mem ra.good g2)) (ri.good.valid _ (cell_mem ri.good g1)) hb⟩) lo hlo
    refine ⟨hi' + 1, ops ++ [.asg hi' (.sum xs.flatten), .asg (cell nM [f, i, kx, ky]) (.sum [cell wM [f, i, kx, ky], hi', cell mM [f, i, kx, ky]]),
      .asg (cell mM [f, i, kx, ky]) (.set hi')], ?_, ?_⟩
    · exact Em.bind (o1 := []) (Em.operand rw'.mat rw'.good (by rw [sw']; exact h4) lo) (Em.bind (o1 := []) (Em.operand rm.mat rm.good (by rw [sm]; exact h4) _)
        (Em.bind (o1 := []) (Em.operand rn.mat rn.good (by rw [sn]; exact h4) _) (Em.bind m
          (Em.bind (o1 := [_]) (Em.emit _ _) (Em.bind (o1 := [_]) (Em.push _ _) (Em.push _ _))))))
    · refine (Effect.upd Vs hlo (Vs.ne_nil ?_) vw vn vm (Or.inr (cell_mem rn.good (by rw [sn]; exact h4))) (Or.inl (cell_mem rm.good (by rw [sm]; exact h4)))).one
        fun v => rfl
      have p1 : 0 < c' := by rw [hc']; exact Nat.succ_pos _
      have p2 : 0 < e' := by rw [he']; exact Nat.succ_pos _
      exact Nat.mul_pos p1 (Nat.mul_pos p2 Nat.one_pos)

theorem deconvUpdate_spec {nf kw kh sx sy : Nat} {a : Activation T} {si : List Nat} (hf : (LSpec.deconv nf kw kh sx sy a : LSpec T).fits si) :
    UpdSpec (T := T) (LayerM.deconvUpdate kw kh sx sy si ((LSpec.deconv nf kw kh sx sy a : LSpec T).outShape si)) (deconvWeights sx sy) si
      ((LSpec.deconv nf kw kh sx sy a : LSpec T).outShape si) [nf, si.getD 0 0, kw, kh] True := by
  obtain ⟨hl3, h1p, h2p, _, _⟩ := hf
  obtain ⟨ch, hch⟩ : ∃ x, x = si.getD 0 0 := ⟨_, rfl⟩
  obtain ⟨c, hc⟩ : ∃ x, x = si.getD 1 0 := ⟨_, rfl⟩
  obtain ⟨e, he⟩ : ∃ x, x = si.getD 2 0 := ⟨_, rfl⟩
  have hsi : si = [ch, c, e] := by rw [hch, hc, he]; exact shape3 hl3
  obtain ⟨c', hc'⟩ : ∃ x, x = (c - 1) * sx + kw := ⟨_, rfl⟩
  obtain ⟨e', he'⟩ : ∃ x, x = (e - 1) * sy + kh := ⟨_, rfl⟩
  have hso : (LSpec.deconv nf kw kh sx sy a : LSpec T).outShape si = [nf, c', e'] := by rw [hsi, hc', he']; rfl
  rw [hso, ← hch]
  rw [← hc] at h1p
  rw [← he] at h2p
  rw [hsi]
  have hor : ∀ f < nf, ∀ x < c, ∀ y < e, ∀ kx < kw, ∀ ky < kh, InRange [nf, c', e'] [f, x * sx + kx, y * sy + ky] :=
    fun f hf x hx y hy kx hkx ky hky => mk3 hf (by rw [hc']; exact spread_lt hx hkx) (by rw [he']; exact spread_lt hy hky)
  refine updSpec_loops [nf, kw, kh, ch] [c, e] (fun k => [k.getD 0 0, k.getD 3 0, k.getD 1 0, k.getD 2 0])
    (fun k o => [k.getD 0 0, o.getD 0 0 * sx + k.getD 1 0, o.getD 1 0 * sy + k.getD 2 0])
    (fun k o => k.getD 3 0 :: o) (fun k h => ?_) (fun k k' h h' hh => ?_) (fun i h => ?_)
    (fun k o hk ho => ?_) (fun k o hk ho => .cons (inRange4 hk).2.2.2.2 ho) (fun k hk al mu d x W hd hx => ?_) fun N inp da w wm nw iM aM wM mM nM ri ra rw' rm rn si' sa sw' sm sn => ?_
  · obtain ⟨_, h0, h1, h2, h3⟩ := inRange4 h
    exact mk4 h0 h3 h1 h2
  · simp only [List.cons.injEq, and_true] at hh
    rw [(inRange4 h).1, (inRange4 h').1, hh.1, hh.2.1, hh.2.2.1, hh.2.2.2]
  · obtain ⟨hi, h0, h1, h2, h3⟩ := inRange4 h
    exact ⟨[i.getD 0 0, i.getD 2 0, i.getD 3 0, i.getD 1 0], mk4 h0 h2 h3 h1, hi.symm⟩
  · obtain ⟨_, h0, h1, h2, h3⟩ := inRange4 hk
    obtain ⟨_, o0, o1⟩ := inRange2' ho
    exact hor _ h0 _ o0 _ o1 _ h1 _ h2
  · unfold deconvWeights
    rw [hx]
    rfl
  · refine Effect.range (F := fun z v => updF _ _ _ _ iM aM wM mM nM z v) (fun f hf => Effect.range fun kx hkx => Effect.range fun ky hky => Effect.range fun i hi lo hlo => ?_) _ le_rfl
    have h4 : InRange [nf, ch, kw, kh] [f, i, kx, ky] := mk4 hf hi hkx hky
    have vw := rw'.good.valid _ (cell_mem rw'.good (by rw [sw']; exact h4))
    have vm := rm.good.valid _ (cell_mem rm.good (by rw [sm]; exact h4))
    have vn := rn.good.valid _ (cell_mem rn.good (by rw [sn]; exact h4))
    obtain ⟨hi', xs, ops, m, Vs⟩ := Vals.grid2 (N := N) (base := N.store.heap.next) (n1 := c) (n2 := e) (safe := True)
      (f := fun px py => (do
          let x ← Run.operand inp [i, px, py]
          let d ← Run.operand da [f, px * sx + kx, py * sy + ky]
          Run.emit (.mul d x)))
      (e := fun o v => GoNum.mul (v (cell aM [f, o.getD 0 0 * sx + kx, o.getD 1 0 * sy + ky])) (v (cell iM (i :: o))))
      (fun ox hox oy hoy lo hb => by
        have g1 : InRange iM.shape [i, ox, oy] := by rw [si']; exact mk3 hi hox hoy
        have g2 : InRange aM.shape [f, ox * sx + kx, oy * sy + ky] := by rw [sa]; exact hor f hf ox hox oy hoy kx hkx ky hky
        exact ⟨lo + 1, lo, _, Em.bind (o1 := []) (Em.operand ri.mat ri.good g1 _) (Em.bind (o1 := []) (Em.operand ra.mat ra.good g2 _) (Em.emit _ _)),
          Vals.mul (ra.good.valid _ (cell_mem ra.good g2)) (ri.good.valid _ (cell_mem ri.good g1)) hb⟩) lo hlo
    refine ⟨hi' + 1, ops ++ [.asg hi' (.sum xs.flatten), .asg (cell nM [f, i, kx, ky]) (.sum [cell wM [f, i, kx, ky], hi', cell mM [f, i, kx, ky]]),
      .asg (cell mM [f, i, kx, ky]) (.set hi')], ?_, ?_⟩
    · exact Em.bind (o1 := []) (Em.operand rw'.mat rw'.good (by rw [sw']; exact h4) lo) (Em.bind (o1 := []) (Em.operand rm.mat rm.good (by rw [sm]; exact h4) _)
        (Em.bind (o1 := []) (Em.operand rn.mat rn.good (by rw [sn]; exact h4) _) (Em.bind m
          (Em.bind (o1 := [_]) (Em.emit _ _) (Em.bind (o1 := [_]) (Em.push _ _) (Em.push _ _))))))
    · refine (Effect.upd Vs hlo (Vs.ne_nil ?_) vw vn vm (Or.inr (cell_mem rn.good (by rw [sn]; exact h4))) (Or.inl (cell_mem rm.good (by rw [sm]; exact h4)))).one
        fun v => rfl
      exact Nat.mul_pos h1p (Nat.mul_pos h2p Nat.one_pos)

theorem bpGood_conv (nf kw kh sx sy : Nat) (a : Activation T) : BPGood (.conv nf kw kh sx sy a : LSpec T) :=
  bpGood_convLike (sw := fun si => [nf, si.getD 0 0, kw, kh]) (pre := LayerM.convPre kw sx sy) (upd := LayerM.convUpdate kw kh sy)
    (back := convBack kw kh sx sy) (wts := convWeights sx sy) (fun _ _ _ _ => rfl) rfl (by intro h; cases h) (by rintro (h | h) <;> cases h) (fun _ => rfl) (fun _ => rfl)
    (fun _ _ _ _ _ _ => rfl) (fun _ _ _ _ => rfl) (fun _ _ _ _ _ _ _ _ => rfl) (fun _ _ _ _ _ => rfl) (fun _ _ _ _ => rfl)
    (fun si hf hb => by obtain ⟨rfl, rfl⟩ := hb; exact convPre_spec hf _) (fun si hf hb => by obtain ⟨rfl, rfl⟩ := hb; exact convUpdate_spec hf)

theorem bpGood_deconv (nf kw kh sx sy : Nat) (a : Activation T) : BPGood (.deconv nf kw kh sx sy a : LSpec T) :=
  bpGood_convLike (sw := fun si => [nf, si.getD 0 0, kw, kh]) (pre := LayerM.deconvPre kw kh sx sy) (upd := LayerM.deconvUpdate kw kh sx sy)
    (back := deconvBack kw kh sx sy) (wts := deconvWeights sx sy) (fun _ _ _ _ => rfl) rfl (by intro h; cases h) (by rintro (h | h) <;> cases h) (fun _ => rfl) (fun _ => rfl)
    (fun _ _ _ _ _ _ => rfl) (fun _ _ _ _ => rfl) (fun _ _ _ _ _ _ _ _ => rfl) (fun _ _ _ _ _ => rfl) (fun _ _ _ _ => rfl)
    (fun si hf _ => deconvPre_spec hf) (fun si hf _ => deconvUpdate_spec hf)

end Godeep
