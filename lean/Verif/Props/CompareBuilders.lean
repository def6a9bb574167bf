import Verif.Props.Compare
import Verif.Props.Segments
import Verif.Props.Builder
import Verif.Props.SplitVec
/-
C65: comparing builders.
-/
namespace Verif

/-- Whether a run is open after the operations: something was written (if only the empty string) since the last
`resolve`/`flush`. -/
def BuildOp.isOpen : Bool → List BuildOp → Bool
  | o, [] => o
  | _, .resolve :: ops => isOpen false ops
  | _, .ioFlush :: ops => isOpen false ops
  | o, .anticipate _ :: ops => isOpen o ops
  | _, _ :: ops => isOpen true ops

namespace Props

open Codec

theorem lengths_inj : ∀ {l l' : List Bytes}, l.flatten = l'.flatten → l.map List.length = l'.map List.length → l = l' := by
  intro l l' h1 h2
  rw [← pieces_lengths l, h1, h2, pieces_lengths]

theorem segs_of_lengths {α : Type} : ∀ {l l' : List (List α)}, l.flatten = l'.flatten →
    l.map List.length = l'.map List.length → l = l'
  | [], [], _, _ => rfl
  | [], _ :: _, _, h => by cases h
  | _ :: _, [], _, h => by cases h
  | a :: l, b :: l', h1, h2 => by
    simp only [List.map_cons, List.cons.injEq, List.flatten_cons] at h1 h2
    obtain ⟨e1, e2⟩ := List.append_inj h1 h2.1
    rw [e1, segs_of_lengths e2 h2.2]

theorem eqv_iff {α : Type} [BEq α] [LawfulBEq α] (s t : SplitVec α) : s.eqv t = true ↔ s = t := by
  obtain ⟨b, st, a, c⟩ := s
  obtain ⟨b', st', a', c'⟩ := t
  simp only [SplitVec.eqv, SpanBuffer.eqv, Bool.and_eq_true, beq_iff_eq, SplitVec.mk.injEq, SpanBuffer.mk.injEq, and_assoc]

/-- Representations are unique both ways. -/
theorem rep_iff {α : Type} {s t : SplitVec α} {g h : Segs α} (hs : s.Rep g) (ht : t.Rep h) : s = t ↔ g = h := by
  constructor
  · rintro rfl
    have hb := hs.buffer.symm.trans ht.buffer
    have hl := hs.stable.symm.trans ht.stable
    have ha := hs.active.symm.trans ht.active
    have hseg : g.segments = h.segments := by
      refine segs_of_lengths hb ?_
      rw [← hs.iter, ← ht.iter]
    obtain ⟨gc, gu⟩ := g
    obtain ⟨hc, hu⟩ := h
    simp only [Segs.segments] at hseg
    simp only at hl ha
    have hlen : gc.length = hc.length := by simpa using congrArg List.length hl
    obtain ⟨e1, e2⟩ := List.append_inj hseg hlen
    subst e1
    congr 1
    cases gu <;> cases hu <;> simp_all
  · rintro rfl
    obtain ⟨b, st, a, c⟩ := s
    obtain ⟨b', st', a', c'⟩ := t
    have h1 := hs.buffer.trans ht.buffer.symm
    have h2 := hs.stable.trans ht.stable.symm
    have h3 := hs.active.trans ht.active.symm
    have h4 := hs.cache.trans ht.cache.symm
    simp only at h1 h2 h3 h4
    rw [h1, h2, h3, h4]

/-- C65: however two segmented buffers came about, they are equal exactly if they consist of the same closed segments
and have the same open segment or none. -/
theorem C65_segments {α : Type} [BEq α] [LawfulBEq α] (p q : Profile) (ops ops' : List (SegOp α)) (m m' : Nat → SplitVec α)
    (h : SplitVec.run p ops (fun _ => .new) = some m) (h' : SplitVec.run q ops' (fun _ => .new) = some m') (i j : Nat) :
    (m i).eqv (m' j) = true ↔ Segs.run ops (fun _ => .empty) i = Segs.run ops' (fun _ => .empty) j := by
  obtain ⟨n, hn, hr⟩ := SplitVec.run_rep p ops (m := fun _ => .new) (g := fun _ => .empty) (fun _ => .new)
  obtain ⟨n', hn', hr'⟩ := SplitVec.run_rep q ops' (m := fun _ => .new) (g := fun _ => .empty) (fun _ => .new)
  rw [h] at hn; rw [h'] at hn'
  cases hn; cases hn'
  rw [eqv_iff, rep_iff (hr i) (hr' j)]

/-- C65: `StrictBuilder`s are equal exactly if the same bytes were written to them, and ordered like the bytes. -/
theorem C65_strict (st st' : BuildStart) (ops ops' : List BuildOp) :
    let b := ((StrictBuilder.start st).runOps ops).2
    let c := ((StrictBuilder.start st').runOps ops').2
    let x := st.bytes ++ ops.flatMap BuildOp.bytes
    let y := st'.bytes ++ ops'.flatMap BuildOp.bytes
    (b.eqv c = true ↔ x = y) ∧ b.pcmp c = Schema.bytes.pcmp x y := by
  intro b c x y
  have hb : b.vec = x := (C40_strict_builder st ops).2.2.2.2
  have hc : c.vec = y := (C40_strict_builder st' ops').2.2.2.2
  rw [StrictBuilder.eqv, StrictBuilder.pcmp, hb, hc, beq_iff_eq]
  exact ⟨.rfl, rfl⟩

theorem memo_active : ∀ (ops : List BuildOp) (m : MemoBuilder),
    (m.runOps ops).2.segs.spans.active.isSome = BuildOp.isOpen m.segs.spans.active.isSome ops
  | [], m => rfl
  | op :: ops, m => by
    show ((m.step op).2.runOps ops).2.segs.spans.active.isSome = _
    rw [memo_active ops]
    cases op with
    | resolve =>
      simp only [MemoBuilder.step, memoTarget, BuildOp.isOpen, SplitVec.split, SpanBuffer.flush]
      cases h : m.segs.spans.active <;> simp [h]
    | ioFlush =>
      simp only [MemoBuilder.step, MemoBuilder.flush, BuildOp.isOpen, SplitVec.split, SpanBuffer.flush]
      cases h : m.segs.spans.active <;> simp [h]
    | _ => rfl

theorem start_active (st : BuildStart) : (MemoBuilder.start st).segs.spans.active.isSome = st.run.isSome := by
  rw [(memo_start st).active]
  cases st.run <;> rfl

theorem Segs.eq_iff {α : Type} (g h : Segs α) : g = h ↔ g.segments = h.segments ∧ g.cur.isSome = h.cur.isSome := by
  constructor
  · rintro rfl; exact ⟨rfl, rfl⟩
  · rintro ⟨h1, h2⟩
    obtain ⟨gc, gu⟩ := g
    obtain ⟨hc, hu⟩ := h
    simp only [Segs.segments] at h1 h2
    have hlen : gc.length = hc.length := by
      have := congrArg List.length h1
      cases gu <;> cases hu <;> simp_all
    obtain ⟨e1, e2⟩ := List.append_inj h1 hlen
    subst e1
    congr 1
    cases gu <;> cases hu <;> simp_all

/-- C65: `MemoBuilder`s are equal exactly if the same runs of bytes were written to them and in both or neither the
last run is still open; finalized, they are equal exactly if the runs are the same. -/
theorem C65_memo (st st' : BuildStart) (ops ops' : List BuildOp) :
    let b := ((MemoBuilder.start st).runOps ops).2
    let c := ((MemoBuilder.start st').runOps ops').2
    let runs := BuildOp.runs st.run ops
    let runs' := BuildOp.runs st'.run ops'
    (b.eqv c = true ↔ runs = runs' ∧ BuildOp.isOpen st.run.isSome ops = BuildOp.isOpen st'.run.isSome ops') ∧
    ((MemoBuilder.ops.finalize b).eqv (MemoBuilder.ops.finalize c) = true ↔ runs = runs') := by
  intro b c runs runs'
  obtain ⟨_, g, h1, h2⟩ := memo_runOps ops (memo_start st)
  obtain ⟨_, g', h1', h2'⟩ := memo_runOps ops' (memo_start st')
  rw [List.nil_append] at h2 h2'
  constructor
  · rw [MemoBuilder.eqv, eqv_iff, rep_iff h1 h1', Segs.eq_iff, h2, h2']
    have a : g.cur.isSome = BuildOp.isOpen st.run.isSome ops := by
      rw [← start_active, ← memo_active, h1.active]
      cases g.cur <;> rfl
    have a' : g'.cur.isSome = BuildOp.isOpen st'.run.isSome ops' := by
      rw [← start_active, ← memo_active, h1'.active]
      cases g'.cur <;> rfl
    rw [a, a']
  · rw [(C40_memo_builder st ops).2.1, (C40_memo_builder st' ops').2.1, MemoBuffer.eqv, Bool.and_eq_true, beq_iff_eq,
      beq_iff_eq, ← (C40_memo_builder st ops).2.2.1, ← (C40_memo_builder st' ops').2.2.1]
    exact ⟨fun h => lengths_inj h.1 h.2, fun h => by exact ⟨congrArg List.flatten h, congrArg (List.map List.length) h⟩⟩

/-- C65: `MemoBuilder`s with different bytes are ordered like the bytes; the order is total and goes with `==`. -/
theorem C65_memo_order (b c : MemoBuilder) :
    (b.intoVec ≠ c.intoVec → b.pcmp c = Schema.bytes.pcmp b.intoVec c.intoVec) ∧
    (b.eqv c = true ↔ b.pcmp c = some .eq) ∧ (∃ o, b.pcmp c = some o) ∧ c.pcmp b = (b.pcmp c).map Ordering.swap := by
  have lnat : Cmp.Laws (fun (x y : Nat) => x == y) Cmp.nat := Cmp.byInt_laws _ _ fun x y => nat_key x y
  have L := Cmp.andThen_laws Cmp.bytes_laws (Cmp.andThen_laws (Cmp.slice_laws lnat) (Cmp.andThen_laws (Cmp.option_laws lnat) lnat))
  have N := Cmp.andThen_nans Cmp.bytes_nans (Cmp.andThen_nans (Cmp.slice_nans (Cmp.byInt_nans fun n : Nat => (n : Int)))
    (Cmp.andThen_nans (Cmp.option_nans (Cmp.byInt_nans fun n : Nat => (n : Int))) (Cmp.byInt_nans fun n : Nat => (n : Int))))
  refine ⟨fun h => ?_, ?_, ?_, L.swap _ _⟩
  · have hne : Cmp.bytes b.segs.buffer c.segs.buffer ≠ some .eq := fun a =>
      h (beq_iff_eq.mp ((Cmp.bytes_laws.eq_iff _ _).mpr a))
    show Cmp.andThen _ _ _ _ = Cmp.bytes b.segs.buffer c.segs.buffer
    cases hc : Cmp.bytes b.segs.buffer c.segs.buffer with
    | none => simp only [Cmp.andThen, hc]
    | some o => cases o <;> simp_all [Cmp.andThen]
  · rw [MemoBuilder.pcmp, ← L.eq_iff]
    simp only [MemoBuilder.eqv, SplitVec.eqv, SpanBuffer.eqv, Bool.and_eq_true, beq_iff_eq, and_assoc]
    have e1 := (Cmp.exact_slice (eq := fun (x y : Nat) => x == y) Cmp.exact_beq) b.segs.spans.stable c.segs.spans.stable
    have e2 := (Cmp.exact_option (eq := fun (x y : Nat) => x == y) Cmp.exact_beq) b.segs.spans.active c.segs.spans.active
    rw [e1, e2]
  · cases h : b.pcmp c with
    | some o => exact ⟨o, rfl⟩
    | none => exact absurd (N.none _ _ h) (by simp)

/-- C65: encodings of well-formed values of a uniquely decodable type in `MemoBuilder`s are equal exactly if those in
`StrictBuilder`s are and exactly if the values are. -/
theorem C65_encode (cfg : Cfg) (s : Schema) (ht : s.tagsOk) {tl : Tail} (htl : s.tail = some tl) (x y : s.Val)
    (hx : s.Valid x) (hy : s.Valid y) (he : cfg.encLenOverride = false ∨ s.PrefixOk x ∧ s.PrefixOk y)
    (b c : MemoBuilder) (hb : (s.codec cfg).encode memoTarget x = some b) (hc : (s.codec cfg).encode memoTarget y = some c)
    (d e : StrictBuilder) (hd : (s.codec cfg).encode strictTarget x = some d)
    (he' : (s.codec cfg).encode strictTarget y = some e) :
    (b.eqv c = true ↔ x = y) ∧ (d.eqv e = true ↔ x = y) ∧ b.intoVec = d.intoVec := by
  have both : ∀ {z : s.Val} {t : MemoBuilder} {u : StrictBuilder}, (s.codec cfg).encode memoTarget z = some t →
      (s.codec cfg).encode strictTarget z = some u →
      (s.codec cfg).toBytes z = some t.intoVec ∧ (s.codec cfg).toBytes z = some u.intoVec := by
    intro z t u h h'
    unfold Codec.encode at h h'
    rcases C35_targets_agree cfg s z with ⟨_, _, h1, _⟩ | ⟨w, h0, _, h1, _, h2, _⟩
    · rw [h1] at h'; cases h'
    · obtain ⟨_, t', h3, _, h4⟩ := h2 memoTarget.create [] ⟨_, SplitVec.Rep.new, rfl⟩
      rw [h1] at h'
      rw [h3] at h
      cases h; cases h'
      exact ⟨h0.trans (congrArg some h4.symm), h0⟩
  obtain ⟨b1, d1⟩ := both hb hd
  obtain ⟨c1, e1⟩ := both hc he'
  refine ⟨⟨fun h => ?_, ?_⟩, ⟨fun h => ?_, ?_⟩, Option.some.inj (b1.symm.trans d1)⟩
  · have h := (eqv_iff _ _).mp h
    exact C48_injective_partial cfg s ht htl x y hx hy he _ b1 (by rw [c1]; exact congrArg (fun z => some (SplitVec.intoInner z)) h.symm)
  · rintro rfl
    rw [hb] at hc
    cases hc
    exact (eqv_iff _ _).mpr rfl
  · have h : d.vec = e.vec := beq_iff_eq.mp h
    exact C48_injective_partial cfg s ht htl x y hx hy he _ d1 (by rw [e1]; exact congrArg some h.symm)
  · rintro rfl
    rw [hd] at he'
    cases he'
    exact beq_iff_eq.mpr rfl

/-- C65 fails for the segmentation as such: builders that show and finalize alike need not be equal, here a builder made
from a vector and one written to and flushed; and neither need be equal to one holding the same bytes in other runs. -/
theorem C65_fails : ∃ b c d : MemoBuilder,
    b = MemoBuilder.fromVec [1, 2] ∧ c = ((MemoBuilder.start .new).runOps [.pushMany [1, 2], .resolve]).2 ∧
    d = ((MemoBuilder.start .new).runOps [.pushOne 1, .resolve, .pushOne 2]).2 ∧
    b.intoVec = c.intoVec ∧ b.display = c.display ∧ (MemoBuilder.ops.finalize b).eqv (MemoBuilder.ops.finalize c) = true ∧
    b.eqv c = false ∧ b.intoVec = d.intoVec ∧ (MemoBuilder.ops.finalize b).eqv (MemoBuilder.ops.finalize d) = false :=
  ⟨_, _, _, rfl, rfl, rfl, rfl, by decide, by decide, by decide, rfl, by decide⟩

/-- Two ways of writing the same runs. -/
example : BuildOp.runs (BuildStart.run .new) [.pushOne 1, .pushOne 2, .resolve, .ioWrite [3]] =
    BuildOp.runs (BuildStart.run (.fromVec [1])) [.ioWrite [2], .ioFlush, .resolve, .pushAll [3], .anticipate 5] := by decide

end Props

end Verif
