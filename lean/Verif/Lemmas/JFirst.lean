import Verif.Lemmas.JStep2
/-
  The first of the models that `FromModels` joins.
-/
set_option linter.unusedSectionVars false

namespace Godeep
open Spec GoNum

variable {T : Type} [GoNum T]

theorem SeqMade.keep {shape : List Nat} {ls : List (LSpec T)} {m b inp0 : Nat} {m0 : Mat} {w w' : World T}
    (S : SeqMade shape ls m b inp0 m0 w) (g : Ext w w') (hl : ∀ l, l ≤ b + ls.length → w'.layers l = w.layers l)
    (hn : w'.nets m = w.nets m) (hx : w.layerNext ≤ w'.layerNext) : SeqMade shape ls m b inp0 m0 w' := by
  refine ⟨S.toSeqBase.ext g fun k hk => ⟨(w.layers (b + k)).build, (w.layers (b + k)).ref, (w.layers (b + k)).index, ?_⟩, fun k hk => ?_,
    le_trans S.next hx, by rw [hn]; exact S.net⟩
  · rw [hl _ (by omega)]
  · rw [hl _ (by omega)]; exact S.new k hk

/-- the models that are to be joined, before they are compiled; `c`: they are connected -/
structure JNew (c : Bool) (w0 : World T) (shape : List Nat) (ls : List (LSpec T)) (m0 inp0 : Nat) (iM : Mat)
    (todo : List (List (LSpec T) × Nat)) (w : World T) : Prop where
  made : SeqMade shape ls m0 w0.layerNext inp0 iM w
  ff : (w.nets m0).ff = none
  apart : Apart w0 w
  low : ∀ q ∈ iM.ops, w0.store.heap.next ≤ q
  own : ∀ k < ls.length, ∀ q, ownCell w (w0.layerNext + 1 + k) q → w0.store.heap.next ≤ q
  todos : Todos c todo (w0.layerNext + ls.length + 1) w
  sep : Sep (w0.layerNext + ls.length + 1) (fun q => q < w.store.heap.next ∧ q ∉ iM.ops ∧
    (∀ k < ls.length, ¬ ownCell w (w0.layerNext + 1 + k) q) ∧ w0.store.heap.next ≤ q) w
  mids : ∀ k ∈ m0 :: todo.map Prod.snd, w0.netNext ≤ k ∧ k < w.netNext
  nodup : (m0 :: todo.map Prod.snd).Nodup

theorem makeAll_ok (shape : List Nat) (ls : List (LSpec T)) (nets : List (List Nat × List (LSpec T))) {w0 : World T}
    (hpos : 0 < w0.store.heap.next) :
    wp True (Run.collect ((shape, ls) :: nets) fun p => sequential p.1 p.2) (fun ms w' => ∃ m0 rest inp0 iM, ms = m0 :: rest ∧
      rest.length = nets.length ∧ JNew false w0 shape ls m0 inp0 iM ((nets.map Prod.snd).zip rest) w') w0 := by
  refine wp_bind' (wp_mono (sequential_ok shape ls hpos) ?_)
  rintro m0 wa ⟨rfl, A, inp0, iM, S, low, own⟩
  have hp : 0 < wa.store.heap.next := lt_of_lt_of_le hpos A.ext.next
  refine wp_bind' (wp_mono (makes_ok nets hp) ?_)
  rintro ms wb ⟨A2, ⟨hl, hnd, hms⟩, td, sp⟩
  have hm : w0.netNext < wa.netNext := S.mlt
  have hz : ((nets.map Prod.snd).zip ms).map Prod.snd = ms := by
    rw [← List.unzip_snd, List.unzip_zip (by simp [hl])]
  have hB := S.next
  have S' := S.made.keep A2.ext (fun l hl => A2.layers l (by omega)) (A2.nets _ hm) A2.layerNext
  refine wp_pure ⟨w0.netNext, ms, inp0, iM, rfl, hl, S', ?_, ?_, low, ?_, ?_, ?_, ?_, ?_⟩
  · rw [A2.nets _ hm, S.net]; rfl
  · refine ⟨A.ext.trans A2.ext, fun q hq => ?_, fun l hl => ?_, fun k hk => ?_, le_trans A.layerNext A2.layerNext, le_trans A.netNext A2.netNext⟩
    · rw [A2.val q (lt_of_lt_of_le hq A.ext.next), A.val q hq]
    · rw [A2.layers l (by omega), A.layers l hl]
    · rw [A2.nets k (by omega), A.nets k hk]
  · intro k hk q hq
    exact own k hk q (((S.toSeqBase.at hk).own_ext A2.ext (bb := _) (r := _) (i := _) (by rw [A2.layers _ (by omega)]) q).1 hq)
  · rw [← hB]; exact td
  · rw [← hB]
    refine sp.mono (le_refl _) fun l h1 h2 q hq (hq' : _ ≤ q) => ⟨td.own_lt h1 h2 hq, fun h => ?_, fun k hk h => ?_, le_trans A.ext.next hq'⟩
    · have := (S.rin.good.valid q h).2; omega
    · have := (S.toSeqBase.at hk).own_lt (((S.toSeqBase.at hk).own_ext A2.ext (bb := _) (r := _) (i := _) (by rw [A2.layers _ (by omega)]) q).1 h)
      omega
  · rw [hz]
    intro k hk
    rcases List.mem_cons.1 hk with rfl | h
    · exact ⟨le_refl _, lt_of_lt_of_le hm A2.netNext⟩
    · have := hms k h
      have := A.netNext
      omega
  · rw [hz]
    refine List.nodup_cons.2 ⟨fun h => ?_, hnd⟩
    have := (hms _ h).1
    omega

/-- connecting them -/
theorem JNew.connect {w0 w : World T} {shape : List Nat} {ls : List (LSpec T)} {m0 inp0 : Nat} {iM : Mat}
    {todo : List (List (LSpec T) × Nat)} (N : JNew false w0 shape ls m0 inp0 iM todo w) :
    ∃ w', connectAll m0 (todo.map Prod.snd) w = .ok () w' ∧ JNew true w0 shape ls m0 inp0 iM todo w' := by
  obtain ⟨w', e, Lk, td⟩ := connectAll_ok (a := m0) (by omega) (by rw [N.made.net.2]; simp) N.todos (List.nodup_cons.1 N.nodup).2
  have hown : ∀ l q, ownCell w' l q ↔ ownCell w l q := fun l q => by
    obtain ⟨p, hp⟩ := Lk.layers l
    unfold ownCell
    rw [hp, Lk.store]
  refine ⟨w', e, N.made.keep Lk.ext (fun l hl => Lk.old l (by omega)) (by rw [Lk.nets]) (le_of_eq Lk.layerNext.symm), by rw [Lk.nets]; exact N.ff,
    ?_, N.low, ?_, td, ?_, by rw [Lk.netNext]; exact N.mids, N.nodup⟩
  · refine ⟨N.apart.ext.trans Lk.ext, fun q hq => ?_, fun l hl => ?_, fun k hk => ?_, ?_, ?_⟩
    · rw [Lk.store]; exact N.apart.val q hq
    · rw [Lk.old l (by omega)]; exact N.apart.layers l hl
    · rw [Lk.nets]; exact N.apart.nets k hk
    · rw [Lk.layerNext]; exact N.apart.layerNext
    · rw [Lk.netNext]; exact N.apart.netNext
  · intro k hk q hq
    exact N.own k hk q ((hown _ q).1 hq)
  · intro l h1 h2 q hq
    rw [Lk.layerNext] at h2
    obtain ⟨⟨a0, a1, a2, a3⟩, a4⟩ := N.sep l h1 h2 q ((hown _ q).1 hq)
    exact ⟨⟨by rw [Lk.store]; exact a0, a1, fun k hk h => a2 k hk ((hown _ q).1 h), a3⟩, fun l' h3 h4 h5 => a4 l' h3 h4 ((hown _ q).1 h5)⟩

/-- compiling the first of them -/
theorem JNew.first {w0 w w1 w2 w' : World T} {shape : List Nat} {ls : List (LSpec T)} {m0 inp0 : Nat} {iM : Mat}
    {todo : List (List (LSpec T) × Nat)} (N : JNew true w0 shape ls m0 inp0 iM todo w) {ops : List (Op T)} {out : Nat} {outM : Mat} {K : Ptr → T → Prop}
    (R : CompileRun shape ls m0 w0.layerNext inp0 iM ops out outM K w w1 w2 w') :
    ∃ d, JInv w0 shape ls d m0 m0 [(m0, ops)] todo w' := by
  have S := N.made
  obtain ⟨x01, x0', hval, hlay, hln, hnn, hsame⟩ := R.apart
  have C := R.compiled S.net.2
  have A := R.all
  have x12 : Ext w1 w2 := A.grow.ext
  have x2' : Ext w2 w' := by
    have := R.fin.ext
    exact ⟨this.next, this.nodeNext, this.kind, this.frozen⟩
  obtain ⟨b, hb⟩ : ∃ b, b = w0.layerNext := ⟨_, rfl⟩
  obtain ⟨t, tM, _, _, _, _, hnet⟩ := R.net
  have hkp : ∀ l, (w'.layers l).kind = (w.layers l).kind ∧ (w'.layers l).pre = (w.layers l).pre := fun l => by
    obtain ⟨_, _, _, e⟩ := hsame l
    rw [R.layers, (A.same l).1, (A.same l).2.1, e]; exact ⟨rfl, rfl⟩
  have hold : ∀ k ≤ ls.length, (w'.layers (b + k)).pre = none ∨ ∃ s : LSpec T, (w'.layers (b + k)).kind = s.kind := fun k hk => by
    rcases Nat.eq_zero_or_pos k with h | h
    · left; subst h; rw [Nat.add_zero, (hkp b).2, hb]; exact S.pre
    · right
      have := (S.toSeqBase.at (k := k - 1) (by omega)).kind
      rw [show w0.layerNext + 1 + (k - 1) = b + k by omega] at this
      exact ⟨_, by rw [(hkp _).1]; exact this⟩
  have rk := hold ls.length (le_refl _)
  have src : Source w' (b + ls.length) (b + ls.length) := ⟨rk, Or.inl rfl⟩
  obtain ⟨⟨G, g⟩, -⟩ := gff_trace A.trace R.seq (fun k hk => (R.refval k hk).2) R.refinj
  have rdif : LeafDif w' (b + ls.length) := by
    have g1 := (g.lay ls.length (le_refl _)).2.1
    have g2 := g.dif ls.length (le_refl _)
    have : LeafDif w2 (b + ls.length) := ⟨_, _, by rw [hb]; exact g1, g2.1, g2.2.1⟩
    exact this.ext x2' (by rw [R.layers])
  obtain ⟨j, hj, ej⟩ := A.refp ls.length (le_refl _)
  have ej' : (w'.layers (b + ls.length)).ref = (w1.layers (w0.layerNext + j)).ref := by rw [R.layers, hb]; exact ej
  obtain ⟨r1, r2, _⟩ := R.seq.ref j hj
  have r3 := (R.refval j hj).1
  have hNw : w0.store.heap.next ≤ w.store.heap.next := N.apart.ext.next
  have hown : ∀ k < ls.length, ∀ q, ownCell w1 (b + 1 + k) q ↔ ownCell w (b + 1 + k) q := fun k hk q => by
    obtain ⟨_, _, _, e⟩ := hsame (b + 1 + k)
    have := S.toSeqBase.at hk
    rw [← hb] at this
    exact this.own_ext x01 e q
  have td := N.todos
  rw [← hb] at td
  refine ⟨_, ⟨C.toChained, ?_, ?_, ?_, ?_, ?_, ?_, ?_, ?_, ?_, ?_⟩, ?_, rfl, N.low, ?_, ?_, ?_, ?_, ?_, ?_, ?_, ?_, ?_, ?_, ?_⟩ <;> (try simp only) <;> (try rw [← hb])
  · exact rk
  · rw [R.layers, hb]; exact A.ffs _ (le_refl _)
  · rw [R.layers, hb]; exact A.output
  · exact rdif
  · rw [R.layers, (A.same _).2.2.2.2.2.2.2, hb]; exact R.built _ (le_refl _)
  · rw [ej']; exact ⟨r1, lt_of_lt_of_le r2 (x12.trans x2').next, by omega⟩
  · intro c h
    rw [ej'] at h
    have := (A.stage.keep _ c h).1
    omega
  · intro k hk l1 l2 x
    rcases Nat.eq_zero_or_pos k with h | h
    · subst h; rw [Nat.add_zero, (hkp b).1, hb, S.kind]; simp
    · have := (S.toSeqBase.at (k := k - 1) (by omega)).kind
      rw [show w0.layerNext + 1 + (k - 1) = b + k by omega] at this
      rw [(hkp _).1, this]
      cases ls[k - 1]'(by omega) <;> simp [LSpec.kind]
  · rw [R.layers, hb, A.input]; exact R.seq.input
  · rw [hnet]; exact ⟨by rw [S.net.2, hb], rfl⟩
  · have a := N.apart
    refine ⟨a.ext.trans x0', fun q hq => ?_, fun l hl => ?_, fun k hk => ?_, ?_, ?_⟩
    · rw [hval q (by omega)]; exact a.val q hq
    · rw [hlay l (by omega)]; exact a.layers l hl
    · rw [R.other k fun e => by have := (N.mids m0 (by simp)).1; omega]
      exact a.nets k hk
    · rw [hln]; exact a.layerNext
    · rw [hnn]; exact a.netNext
  · exact le_trans hNw x01.next
  · rintro q ⟨k, hk, hq⟩
    exact N.own k hk q (by rw [← hb]; exact (hown k hk q).1 hq)
  · refine td.keep x0' (fun l h1 _ => hlay l (by omega)) (fun p hp => R.other _ fun e => ?_) hln
    have := (List.nodup_cons.1 N.nodup).1
    exact this (by rw [← e]; exact List.mem_map_of_mem hp)
  · have sp := N.sep
    rw [← hb] at sp
    refine (sp.mono (le_refl _) ?_).keep td x0' (fun l h1 _ => hlay l (by omega)) hln
    rintro l h1 h2 q hq ⟨p0, p1, p2, p3⟩
    exact ⟨lt_of_lt_of_le p0 x01.next, p1, fun ⟨k, hk, h⟩ => p2 k hk ((hown k hk q).1 h), p3⟩
  · intro p hp
    simp only [List.mem_singleton] at hp
    subst hp
    exact ⟨by rw [hnet], b + ls.length, by omega, by rw [hnet, hb]; exact S.net.2, src, rdif⟩
  · simp
  · intro p hp
    rw [hnn]; exact N.mids p.2 (by simp; right; exact ⟨_, hp⟩)
  · simpa using N.nodup
  · rw [hnet]; exact ⟨by rw [S.net.1, hb], rfl⟩
  · simp
  · simp

end Godeep
