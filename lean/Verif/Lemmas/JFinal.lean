import Verif.Lemmas.JFirst
import Verif.Lemmas.BPFrame
import Verif.Spec.Joined
/-
  `FromModels` on new sequential models.
-/
set_option linter.unusedSectionVars false

namespace Godeep
open Spec GoNum

variable {T : Type} [GoNum T] {α : Type}

theorem fits_app {A B : List (LSpec T)} {s : List Nat} : Fits (A ++ B) s ↔ Fits A s ∧ Fits B (outShapes A s) := by
  induction A generalizing s with
  | nil => simp [Fits, outShapes]
  | cons l A ih => simp only [List.cons_append, Fits, ih, outShapes, and_assoc]

/-- the layers of models that are joined, the later ones with their input layers -/
def joinLs (shape : List Nat) : List (LSpec T) → List (List (LSpec T)) → List (LSpec T)
  | L, [] => L
  | L, ls :: rest => joinLs shape (L ++ linkSpec (outShapes L shape) :: ls) rest

theorem outShapes_join (shape : List Nat) (L ls : List (LSpec T)) :
    outShapes (L ++ linkSpec (outShapes L shape) :: ls) shape = outShapes ls (outShapes L shape) := by
  rw [outShapes_app]
  show outShapes ls ((linkSpec (outShapes L shape) : LSpec T).outShape _) = _
  rw [linkSpec_out]

theorem joinLs_length (shape : List Nat) (L : List (LSpec T)) (lss : List (List (LSpec T))) :
    (joinLs shape L lss).length = L.length + (lss.map fun ls => ls.length + 1).sum := by
  induction lss generalizing L with
  | nil => rfl
  | cons ls rest ih =>
    rw [joinLs, ih]
    simp only [List.length_append, List.length_cons, List.map_cons, List.sum_cons]
    omega

/-- the body of the second loop of `FromModels` -/
def compileNew (i : Nat) : Run T Unit := do
  let x ← Run.net i
  match x.ff with
  | none => LayerM.ignoreErr (NetM.compile i)
  | some _ => pure ()

theorem wp_ignoreErr {tot : Prop} {a : Run T Unit} {Q : Unit → World T → Prop} {w : World T} (ht : tot) (h : wp tot a Q w) : wp tot (LayerM.ignoreErr a) Q w := by
  unfold wp LayerM.ignoreErr at *
  cases e : a w with
  | ok _ w' => rw [e] at h; exact h
  | err _ w' => rw [e] at h; exact absurd ht h
  | panic => rw [e] at h; exact absurd ht h

theorem wp_compileNew {tot : Prop} {i : Nat} {Q : Unit → World T → Prop} {w : World T} (ht : tot) (hi : (w.nets i).ff = none)
    (h : wp tot (NetM.compile i) Q w) : wp tot (compileNew i) Q w := by
  unfold compileNew
  refine wp_bind (wp_net ?_)
  rw [hi]
  exact wp_ignoreErr ht h

theorem compileAll_ok (hlaw : eq (add zero one) (zero : T) = false) {w0 : World T} {shape : List Nat} {m0 : Nat}
    {todo : List (List (LSpec T) × Nat)} {L : List (LSpec T)} {d : CData T} {mz : Nat} {done : List (Nat × List (Op T))} {w : World T}
    (J : JInv w0 shape L d m0 mz done todo w) (hg : ∀ p ∈ todo, ∀ s ∈ p.1, FFGood s) (hne : ∀ p ∈ todo, p.1 ≠ [])
    (hfit : Fits (todo.map Prod.fst).flatten (outShapes L shape)) :
    wp True (Run.each (todo.map Prod.snd) compileNew) (fun _ w' => ∃ d' done', d'.b = d.b ∧
      JInv w0 shape (joinLs shape L (todo.map Prod.fst)) d' m0 ((todo.map Prod.snd).getLast?.getD mz) done' [] w' ∧
      done'.map Prod.fst = done.map Prod.fst ++ todo.map Prod.snd ∧
      w'.netNext = w.netNext ∧ ∀ k, (w'.nets k).first = (w.nets k).first ∧ (w'.nets k).last = (w.nets k).last) w := by
  induction todo generalizing L d mz done w with
  | nil => exact wp_pure ⟨d, done, rfl, J, by simp, rfl, fun _ => ⟨rfl, rfl⟩⟩
  | cons p rest ih =>
    obtain ⟨ls, m⟩ := p
    simp only [List.map_cons, List.flatten_cons] at hfit
    obtain ⟨f1, f2⟩ := fits_app.1 hfit
    have hne1 : ls ≠ [] := hne (ls, m) (by simp)
    refine wp_bind' (wp_mono (wp_compileNew trivial J.todos.1.net.2.2 (compile_link hlaw (J.made hne1) (hg (ls, m) (by simp)) f1)) ?_)
    rintro _ w' ⟨ops, out, outM, K, w1, w2, R⟩
    have J' := J.step hne1 R
    refine wp_mono (ih J' (fun p hp => hg p (by simp [hp])) (fun p hp => hne p (by simp [hp])) (by rw [outShapes_join]; exact f2)) ?_
    rintro _ w'' ⟨d', done', e1, e2, e3, e6, e4⟩
    have e5 : ∀ k, (w'.nets k).first = (w.nets k).first ∧ (w'.nets k).last = (w.nets k).last := fun k => by
      by_cases hk : k = m
      · obtain ⟨t, i, hn⟩ := R.net
        rw [hk, hn]; exact ⟨rfl, rfl⟩
      · rw [R.other k hk]; exact ⟨rfl, rfl⟩
    refine ⟨d', done', e1, ?_, ?_, e6.trans R.apart.2.2.2.2.2.2.1, fun k => ⟨(e4 k).1.trans (e5 k).1, (e4 k).2.trans (e5 k).2⟩⟩
    · have : (List.map Prod.snd ((ls, m) :: rest)).getLast?.getD mz = (List.map Prod.snd rest).getLast?.getD m := by
        cases h : List.map Prod.snd rest with
        | nil => simp [h]
        | cons a l => simp [h, List.getLast?_cons_cons, List.getLast?_eq_some_getLast]
      rw [this]; exact e2
    · rw [e3]; simp

/-! ### back-propagation does not matter -/

theorem DoneAt.kept {w w' : World T} {n m : Nat} {ops : List (Op T)} (h : DoneAt w n m ops) (k : PredKept w w') : DoneAt w' n m ops := by
  obtain ⟨h1, last, h2, h3, h4, h5⟩ := h
  have e := k.nets m
  have e1 : (w'.nets m).ff = (w.nets m).ff := (congrArg Net.ff e :)
  have e2 : (w'.nets m).last = (w.nets m).last := (congrArg Net.last e :)
  have l1 : ∀ l, (w'.layers l).kind = (w.layers l).kind := fun l => (congrArg Layer.kind (k.layers l) :)
  have l2 : ∀ l, (w'.layers l).pre = (w.layers l).pre := fun l => (congrArg Layer.pre (k.layers l) :)
  have l3 : ∀ l, (w'.layers l).dif = (w.layers l).dif := fun l => (congrArg Layer.dif (k.layers l) :)
  refine ⟨by rw [e1]; exact h1, last, h2, by rw [e2]; exact h3, ⟨?_, Or.inl rfl⟩, h5.ext k.ext (l3 _)⟩
  have := h4.1
  rw [l1, l2]; exact this

/-- the body of the third loop of `FromModels` -/
def backNew (i : Nat) : Run T Unit := do
  let x ← Run.net i
  match x.bp with
  | none => LayerM.ignoreErr (NetM.compileBP i)
  | some _ => pure ()

theorem backNew_ok {i n : Nat} {ops : List (Op T)} {w : World T} (h : DoneAt w n i ops) : wp False (backNew i) (fun _ w' => PredKept w w') w := by
  unfold backNew
  refine wp_bind (wp_net ?_)
  cases (w.nets i).bp with
  | some _ => exact wp_pure (PredKept.refl w)
  | none =>
    obtain ⟨_, last, _, h3, h4, h5⟩ := h
    have := compileBP_keeps h3 h4 h5
    show wp False (LayerM.ignoreErr (NetM.compileBP i)) _ w
    unfold wp LayerM.ignoreErr
    cases e : NetM.compileBP i w with
    | ok _ w' => rw [e] at this; exact this
    | err _ w' => rw [e] at this; exact this
    | panic => exact fun h => h

theorem backAll_ok {l : List Nat} {n : Nat} {w : World T} (h : ∀ i ∈ l, ∃ ops, DoneAt w n i ops) :
    wp False (Run.each l backNew) (fun _ w' => PredKept w w') w := by
  refine wp_each (fun _ w' => PredKept w w') (PredKept.refl w) fun d i r hl w' k => ?_
  obtain ⟨ops, ho⟩ := h i (by rw [hl]; simp)
  exact wp_mono (backNew_ok (ho.kept k)) fun _ w'' k' => k.trans k'

/-! ### the joined model -/

/-- the graph `f` of model `i` -/
def needOf (f : Net T → Option (List (Op T))) (i : Nat) : Run T (List (Op T)) := do
  let x ← Run.net i
  match f x with
  | some g => return g
  | none => Run.fail (.other "not compiled")

theorem needAll_ok (f : Net T → Option (List (Op T))) (l : List Nat) (w : World T) :
    wp False (Run.collect l (needOf f)) (fun gs w' => w' = w ∧ List.Forall₂ (fun i g => f (w.nets i) = some g) l gs) w := by
  induction l with
  | nil => exact wp_pure ⟨rfl, .nil⟩
  | cons i l ih =>
    have h1 : wp False (needOf f i) (fun g w' => w' = w ∧ f (w.nets i) = some g) w := by
      unfold needOf
      refine wp_bind (wp_net ?_)
      cases e : f (w.nets i) with
      | some g => exact wp_pure ⟨rfl, rfl⟩
      | none => exact fun h => h
    refine wp_bind' (wp_mono h1 ?_)
    rintro g _ ⟨rfl, hg⟩
    refine wp_bind' (wp_mono ih ?_)
    rintro gs _ ⟨rfl, hgs⟩
    exact wp_pure ⟨rfl, .cons hg hgs⟩

theorem fromModels_eq (m0 : Nat) (rest : List Nat) :
    (NetM.fromModels (m0 :: rest) : Run T Nat) = (do
      connectAll m0 rest
      Run.each (m0 :: rest) compileNew
      Run.each (m0 :: rest).reverse backNew
      let x0 ← Run.net m0
      let xz ← Run.net (rest.getLast?.getD m0)
      let ff ← Run.collect (m0 :: rest) (needOf Net.ff)
      let rs ← Run.collect (m0 :: rest) (needOf Net.reset)
      let rf ← Run.collect (m0 :: rest) (needOf Net.resetFit)
      let cd ← Run.deref xz.calDif
      let bp ← Run.collect (m0 :: rest).reverse (needOf Net.bp)
      NetM.newNet { x0 with last := xz.last, output := xz.output, target := xz.target, alpha := xz.alpha, momentum := xz.momentum, loss := xz.loss, ff := some ff.flatten, reset := some rs.flatten, resetFit := some rf.flatten, calDif := some cd, bp := some bp.flatten }) := by
  unfold NetM.fromModels
  have := connectAll_eq (T := T) (models := m0 :: rest) [] m0 rest rfl
  simp only [List.length_nil, Nat.zero_add] at this
  have h2 : (m0 :: rest).getLast?.getD m0 = rest.getLast?.getD m0 := by
    cases rest with
    | nil => rfl
    | cons a l => simp [List.getLast?_cons_cons, List.getLast?_eq_some_getLast]
  simp only [List.length_cons, Nat.add_sub_cancel, h2]
  rw [this]
  rfl

theorem wp_partial {tot : Prop} {a : Run T α} {Q : α → World T → Prop} {w : World T} (h : wp tot a Q w) : wp False a Q w := by
  unfold wp at *
  split
  · rename_i e; rw [e] at h; exact h
  · exact fun h => h

theorem wp_derefF {o : Option α} {Q : α → World T → Prop} {w : World T} (h : ∀ a, Q a w) : wp False (Run.deref o) Q w := by
  cases o with
  | none => exact fun h => h
  | some a => exact h a

theorem _root_.List.Forall₂.eq_of_fn {ι : Type} {R S : ι → α → Prop} {l : List ι} {a b : List α} (h1 : List.Forall₂ R l a) (h2 : List.Forall₂ S l b)
    (h : ∀ i x y, R i x → S i y → x = y) : a = b := by
  induction h1 generalizing b with
  | nil => cases h2; rfl
  | cons r _ ih =>
    cases h2 with
    | cons s t => rw [h _ _ _ r s, ih t]

/-- the first and the last layers of models with consecutive layers, from `b` on -/
def PartsAt (w : World T) : List (List (LSpec T) × Nat) → Nat → Prop
  | [], _ => True
  | (ls, m) :: rest, b => (w.nets m).first = some b ∧ (w.nets m).last = some (b + ls.length) ∧ PartsAt w rest (b + ls.length + 1)

theorem Todos.parts {c : Bool} {todo : List (List (LSpec T) × Nat)} {b : Nat} {w w' : World T} (h : Todos c todo b w)
    (hn : ∀ p ∈ todo, (w'.nets p.2).first = (w.nets p.2).first ∧ (w'.nets p.2).last = (w.nets p.2).last) : PartsAt w' todo b := by
  induction todo generalizing b with
  | nil => trivial
  | cons p rest ih =>
    obtain ⟨h1, h2⟩ := h
    exact ⟨by rw [(hn p (by simp)).1]; exact h1.net.1, by rw [(hn p (by simp)).2]; exact h1.net.2.1, ih h2 fun q hq => hn q (by simp [hq])⟩

theorem joined_made (hlaw : eq (add zero one) (zero : T) = false) {shape : List Nat} {ls : List (LSpec T)}
    {nets : List (List Nat × List (LSpec T))} {w0 : World T} (hpos : 0 < w0.store.heap.next) (hg : ∀ s ∈ ls, FFGood s)
    (hgs : ∀ p ∈ nets, ∀ s ∈ p.2, FFGood s) (hne : ∀ p ∈ nets, p.2 ≠ []) (hfit : Fits (ls ++ (nets.map Prod.snd).flatten) shape) :
    wp False (joined ((shape, ls) :: nets))
      (fun r w1 => ∃ d m0 rest, r.1 = m0 :: rest ∧ rest.length = nets.length ∧ MadeF False w0 w1 r.2 shape (joinLs shape ls (nets.map Prod.snd)) d ∧
        PartsAt w1 ((ls, m0) :: (nets.map Prod.snd).zip rest) w0.layerNext) w0 := by
  obtain ⟨f1, f2⟩ := fits_app.1 hfit
  refine wp_bind (wp_mono (wp_partial (makeAll_ok shape ls nets hpos)) ?_)
  rintro ms wa ⟨m0, rest, inp0, iM, rfl, hlen, N0⟩
  obtain ⟨todo, htodo⟩ : ∃ t, t = (nets.map Prod.snd).zip rest := ⟨_, rfl⟩
  rw [← htodo] at N0
  have z1 : todo.map Prod.fst = nets.map Prod.snd := by
    rw [htodo, ← List.unzip_fst, List.unzip_zip (by simp [hlen])]
  have z2 : todo.map Prod.snd = rest := by
    rw [htodo, ← List.unzip_snd, List.unzip_zip (by simp [hlen])]
  have tm : ∀ p ∈ todo, ∃ p' ∈ nets, p.1 = p'.2 := fun p hp => by
    have := List.mem_map_of_mem (f := Prod.fst) hp
    rw [z1] at this
    obtain ⟨p', h1, h2⟩ := List.mem_map.1 this
    exact ⟨p', h1, h2.symm⟩
  suffices H : wp False (NetM.fromModels (m0 :: rest)) (fun m w1 => ∃ d, MadeF False w0 w1 m shape (joinLs shape ls (nets.map Prod.snd)) d ∧
      PartsAt w1 ((ls, m0) :: todo) w0.layerNext) wa by
    refine wp_bind (wp_mono H ?_)
    rintro m w1 ⟨d, h1, h2⟩
    exact wp_pure ⟨d, m0, rest, rfl, hlen, h1, htodo ▸ h2⟩
  rw [fromModels_eq]
  obtain ⟨wb, eb, N⟩ := N0.connect
  rw [z2] at eb
  refine wp_bind (wp_of_ok eb ?_)
  -- the first model
  have hfirst := wp_compileNew (tot := True) trivial N.ff (compile_core hlaw N.made hg f1)
  have hall : wp True (Run.each (m0 :: rest) compileNew) (fun _ w' => ∃ d' done', 
      JInv w0 shape (joinLs shape ls (nets.map Prod.snd)) d' m0 (rest.getLast?.getD m0) done' [] w' ∧
      done'.map Prod.fst = m0 :: rest ∧ w'.netNext = wb.netNext ∧ ∀ k, (w'.nets k).first = (wb.nets k).first ∧ (w'.nets k).last = (wb.nets k).last) wb := by
    refine wp_bind' (wp_mono hfirst ?_)
    rintro _ wc ⟨ops, out, outM, K, w1, w2, R⟩
    obtain ⟨d, J⟩ := N.first R
    have := compileAll_ok hlaw J (fun p hp s hs => by obtain ⟨p', h1, h2⟩ := tm p hp; exact hgs p' h1 s (by rw [← h2]; exact hs))
      (fun p hp => by obtain ⟨p', h1, h2⟩ := tm p hp; rw [h2]; exact hne p' h1) (by rw [z1]; exact f2)
    rw [z1, z2] at this
    refine wp_mono this ?_
    rintro _ w' ⟨d', done', _, e2, e3, e6, e4⟩
    have e5 : ∀ k, (wc.nets k).first = (wb.nets k).first ∧ (wc.nets k).last = (wb.nets k).last := fun k => by
      by_cases hk : k = m0
      · obtain ⟨t, i, _, _, _, _, hn⟩ := R.net
        rw [hk, hn]; exact ⟨rfl, rfl⟩
      · rw [R.other k hk]; exact ⟨rfl, rfl⟩
    exact ⟨d', done', e2, by simpa using e3, e6.trans R.apart.2.2.2.2.2.1, fun k => ⟨(e4 k).1.trans (e5 k).1, (e4 k).2.trans (e5 k).2⟩⟩
  refine wp_bind (wp_mono (wp_partial hall) ?_)
  rintro _ wc ⟨d, done, J, hdone, hnn, hends⟩
  have dn : ∀ i ∈ m0 :: rest, ∃ ops, (i, ops) ∈ done ∧ DoneAt wc (d.b + (joinLs shape ls (nets.map Prod.snd)).length + 1) i ops := fun i hi => by
    rw [← hdone] at hi
    obtain ⟨p, h1, h2⟩ := List.mem_map.1 hi
    subst h2
    exact ⟨p.2, h1, J.dones p h1⟩
  refine wp_bind (wp_mono (backAll_ok (n := d.b + (joinLs shape ls (nets.map Prod.snd)).length + 1) fun i hi => ?_) ?_)
  · obtain ⟨ops, _, h⟩ := dn i (List.mem_reverse.1 hi)
    exact ⟨ops, h⟩
  rintro _ wd k
  have k' := k
  have e := k.ext
  have ky : ∀ l, (wd.layers l).forBP = (wc.layers l).forBP := k.layers
  have kn : ∀ l, (wd.nets l).forBP = (wc.nets l).forBP := k.nets
  refine wp_bind (wp_net ?_)
  refine wp_bind (wp_net ?_)
  refine wp_bind (wp_mono (needAll_ok _ _ _) ?_)
  rintro ff wd ⟨rfl, hff⟩
  refine wp_bind (wp_mono (needAll_ok _ _ _) ?_)
  rintro rs wd ⟨rfl, -⟩
  refine wp_bind (wp_mono (needAll_ok _ _ _) ?_)
  rintro rf wd ⟨rfl, -⟩
  refine wp_bind (wp_derefF fun cd => ?_)
  refine wp_bind (wp_mono (needAll_ok _ _ _) ?_)
  rintro bp wd ⟨rfl, -⟩
  have hflat : ff.flatten = d.ops := by
    rw [J.dops]
    have hq : List.Forall₂ (fun i g => ∃ n, DoneAt wc n i g) (m0 :: rest) (done.map Prod.snd) := by
      rw [← hdone]
      have : ∀ l : List (Nat × List (Op T)), (∀ p ∈ l, p ∈ done) → List.Forall₂ (fun i g => ∃ n, DoneAt wc n i g) (l.map Prod.fst) (l.map Prod.snd) := by
        intro l
        induction l with
        | nil => exact fun _ => .nil
        | cons p l ih => exact fun h => .cons ⟨_, J.dones p (h p (by simp))⟩ (ih fun q hq => h q (by simp [hq]))
      exact this done fun _ h => h
    have : ff = done.map Prod.snd := by
      refine List.Forall₂.eq_of_fn hff hq fun i a b h1 ⟨n, h2, _⟩ => ?_
      have e1 : (wd.nets i).ff = (wc.nets i).ff := (congrArg Net.ff (kn i) :)
      rw [e1, h2] at h1
      exact (Option.some.inj h1).symm
    rw [this, List.flatMap]
  have y1 : ∀ l, (wd.layers l).kind = (wc.layers l).kind := fun l => (congrArg Layer.kind (ky l) :)
  have y2 : ∀ l, (wd.layers l).pre = (wc.layers l).pre := fun l => (congrArg Layer.pre (ky l) :)
  have y3 : ∀ l, (wd.layers l).weights = (wc.layers l).weights := fun l => (congrArg Layer.weights (ky l) :)
  have y4 : ∀ l, (wd.layers l).bias = (wc.layers l).bias := fun l => (congrArg Layer.bias (ky l) :)
  have y5 : ∀ l, (wd.layers l).input = (wc.layers l).input := fun l => (congrArg Layer.input (ky l) :)
  have y6 : ∀ l, (wd.layers l).output = (wc.layers l).output := fun l => (congrArg Layer.output (ky l) :)
  have n1 : ∀ l, (wd.nets l).first = (wc.nets l).first := fun l => (congrArg Net.first (kn l) :)
  have n2 : ∀ l, (wd.nets l).last = (wc.nets l).last := fun l => (congrArg Net.last (kn l) :)
  have n3 : ∀ l, (wd.nets l).input = (wc.nets l).input := fun l => (congrArg Net.input (kn l) :)
  have n4 : ∀ l, (wd.nets l).output = (wc.nets l).output := fun l => (congrArg Net.output (kn l) :)
  obtain ⟨x, hx, hx1, hx2, hx3, hx4, hx5⟩ : ∃ x : Net T, x = ({ wd.nets m0 with last := (wd.nets (rest.getLast?.getD m0)).last, output := (wd.nets (rest.getLast?.getD m0)).output, target := (wd.nets (rest.getLast?.getD m0)).target, alpha := (wd.nets (rest.getLast?.getD m0)).alpha, momentum := (wd.nets (rest.getLast?.getD m0)).momentum, loss := (wd.nets (rest.getLast?.getD m0)).loss, ff := some ff.flatten, reset := some rs.flatten, resetFit := some rf.flatten, calDif := some cd, bp := some bp.flatten } : Net T) ∧
      x.ff = some d.ops ∧ x.first = some d.b ∧ x.input = some d.inp ∧ x.output = some d.out ∧ x.last = some (d.b + (joinLs shape ls (nets.map Prod.snd)).length) :=
    ⟨_, rfl, by rw [← hflat], by rw [← J.fnet.1]; exact n1 m0, by rw [← J.fnet.2]; exact n3 m0, by rw [← J.znet.2]; exact n4 _,
      by rw [← J.znet.1]; exact n2 _⟩
  rw [← hx]
  clear hx
  have ew : Ext wd { wd with nets := fun k => if k = wd.netNext then x else wd.nets k, netNext := wd.netNext + 1 } := ext_of_eq (le_refl _) rfl rfl
  refine wp_of_ok (r := wd.netNext) rfl ⟨d, ?_, ?_⟩
  case refine_2 =>
    have hk : ∀ k ∈ m0 :: todo.map Prod.snd, ((if k = wd.netNext then x else wd.nets k).first = (wb.nets k).first ∧
        (if k = wd.netNext then x else wd.nets k).last = (wb.nets k).last) := fun k hk => by
      have h1 : k < wd.netNext := by rw [k'.netNext, hnn]; exact (N.mids k hk).2
      rw [if_neg (by omega), n1, n2]; exact hends k
    refine ⟨?_, ?_, ?_⟩
    · show (if m0 = wd.netNext then x else wd.nets m0).first = _
      rw [(hk m0 (by simp)).1]; exact N.made.net.1
    · show (if m0 = wd.netNext then x else wd.nets m0).last = _
      rw [(hk m0 (by simp)).2]; exact N.made.net.2
    · exact N.todos.parts fun p hp => hk p.2 (List.mem_cons_of_mem _ (List.mem_map_of_mem hp))
  have C : Chained shape (joinLs shape ls (nets.map Prod.snd)) d { wd with nets := fun k => if k = wd.netNext then x else wd.nets k, netNext := wd.netNext + 1 } := by
    refine J.toChained.later (e.trans ew) (fun k _ => ⟨y2 _, y3 _, y4 _⟩) fun q c hK => ?_
    have := J.stage.keep q c hK
    have := J.hi
    show wd.store.heap.val q = c
    rw [k.val q (by omega)]
    exact J.kept q c hK
  refine ⟨⟨J.apart.ext.trans (e.trans ew), fun q hq => ?_⟩, ?_, ⟨C, ?_, ?_, ?_, ?_⟩, J.base, ?_, J.low, J.lo, J.ownlow, fun k hk l1 l2 x => ?_, fun h => absurd h fun h => h,
    ?_, ?_, ?_⟩
  · show wd.store.heap.val q = _
    rw [k.val q (lt_of_lt_of_le hq J.apart.ext.next)]; exact J.apart.val q hq
  · rw [k.netNext]; exact J.apart.netNext
  · simpa using hx1
  · simpa using hx3
  · simpa using hx4
  · simpa using hx5
  · show wd.layerNext = _
    rw [k.layerNext, ← J.base]; exact J.todos
  · show (wd.layers _).kind ≠ _
    rw [y1]; exact J.nc k hk l1 l2 x
  · simpa using hx2
  · show (wd.layers _).input = _
    rw [y5]; exact J.inp
  · exact fun h => h.elim

end Godeep
