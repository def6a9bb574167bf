import Verif.Refine.SplitVec
import Verif.Lemmas.Schema
/-
What writing a value does to the segments of a `MemoBuilder`.
-/
namespace Verif

/-- What a `MemoBuilder` can tell apart: bytes put in, and the current segment being closed. -/
inductive Mark where
  | put (bs : Bytes)
  | cut

namespace Segs

def mark (g : Segs Byte) : Mark → Segs Byte
  | .put bs => g.extend bs
  | .cut => g.split

def marks (g : Segs Byte) (ms : List Mark) : Segs Byte := ms.foldl mark g

theorem marks_append (g : Segs Byte) (a b : List Mark) : g.marks (a ++ b) = (g.marks a).marks b := by
  simp [marks]

/-- `g` behind closed segments. -/
def behind (pre : List Bytes) (g : Segs Byte) : Segs Byte := { closed := pre ++ g.closed, cur := g.cur }

theorem mark_behind (pre : List Bytes) (g : Segs Byte) (m : Mark) : (behind pre g).mark m = behind pre (g.mark m) := by
  cases m <;> simp [mark, behind, extend, split, segments]

theorem marks_behind (pre : List Bytes) : ∀ (ms : List Mark) (g : Segs Byte),
    (behind pre g).marks ms = behind pre (g.marks ms)
  | [], _ => rfl
  | m :: ms, g => by
    show ((behind pre g).mark m).marks ms = behind pre ((g.mark m).marks ms)
    rw [mark_behind, marks_behind pre ms]

theorem eq_behind (g : Segs Byte) (h : g.cur = none) : g = behind g.segments empty := by
  obtain ⟨closed, cur⟩ := g
  simp only at h
  subst h
  simp [behind, segments, empty]

theorem contents_mark (g : Segs Byte) : ∀ m : Mark, (g.mark m).contents = g.contents ++ (match m with | .put bs => bs | .cut => [])
  | .put bs => g.contents_extend bs
  | .cut => by simp [mark, g.contents_split]

end Segs

/-- The segments made by `ms`. -/
def Mark.segments (ms : List Mark) : List Bytes := (Segs.empty.marks ms).segments

/-- `ms` ends with the last segment closed. -/
def Mark.Closed (ms : List Mark) : Prop := (Segs.empty.marks ms).cur = none

theorem Mark.segments_append {a : List Mark} (ha : Mark.Closed a) (b : List Mark) :
    Mark.segments (a ++ b) = Mark.segments a ++ Mark.segments b := by
  unfold Mark.segments
  rw [Segs.marks_append, Segs.eq_behind _ ha, Segs.marks_behind]
  simp [Segs.behind, Segs.segments, Segs.empty]

theorem Mark.closed_append {a : List Mark} (ha : Mark.Closed a) {b : List Mark} (hb : Mark.Closed b) :
    Mark.Closed (a ++ b) := by
  unfold Mark.Closed at *
  rw [Segs.marks_append, Segs.eq_behind _ ha, Segs.marks_behind]
  exact hb

theorem Mark.closed_cut (a : List Mark) : Mark.Closed (a ++ [.cut]) := by
  unfold Mark.Closed
  rw [Segs.marks_append]
  rfl

theorem Mark.closed_nil : Mark.Closed [] := rfl

theorem Mark.segments_cut {a : List Mark} : Mark.segments (a ++ [.cut]) = Mark.segments a := by
  unfold Mark.segments
  rw [Segs.marks_append]
  simp [Segs.marks, Segs.mark, Segs.split, Segs.segments]

theorem Mark.segments_put (bs : Bytes) : Mark.segments [.put bs, .cut] = [bs] := by
  simp [Mark.segments, Segs.marks, Segs.mark, Segs.split, Segs.extend, Segs.segments, Segs.empty]

/-- The writing step does `ms` to the segments of a `MemoBuilder`, or panics. -/
def Marks (f : W MemoBuilder) (ms : Option (List Mark)) : Prop :=
  ∀ g t, t.segs.Rep g → match ms with
    | none => f t = none
    | some ms => ∃ n t', f t = some (n, t') ∧ t'.segs.Rep (g.marks ms)

namespace Marks

theorem cast {f : W MemoBuilder} {m m' : Option (List Mark)} (h : Marks f m) (e : m = m') : Marks f m' := e ▸ h

theorem add {f g : W MemoBuilder} {a b : Option (List Mark)} (hf : Marks f a) (hg : Marks g b) :
    Marks (W.add f g) (do let x ← a; let y ← b; pure (x ++ y)) := by
  intro s t h
  have h1 := hf s t h
  cases a with
  | none => simp only at h1; simp [W.add, h1]
  | some x =>
    obtain ⟨n1, t1, h1, r1⟩ := h1
    have h2 := hg _ _ r1
    cases b with
    | none => simp only at h2; simp [W.add, h1, h2]
    | some y =>
      obtain ⟨n2, t2, h2, r2⟩ := h2
      refine ⟨n1 + n2, t2, by simp [W.add, h1, h2], ?_⟩
      rw [Segs.marks_append]
      exact r2

theorem zero : Marks W.zero (some []) := fun _ t h => ⟨0, t, rfl, h⟩
theorem panic : Marks W.panic none := fun _ _ _ => rfl
theorem resolveZero : Marks (W.resolveZero memoTarget) (some [.cut]) := fun _ _ h => ⟨0, _, rfl, h.split⟩
theorem pushOne (b : Byte) : Marks (W.push (memoTarget.pushOne b)) (some [.put [b]]) :=
  fun _ _ h => ⟨1, _, rfl, h.extendFromSlice [b]⟩
theorem pushMany (a : Bytes) : Marks (W.push (memoTarget.pushMany a)) (some [.put a]) :=
  fun _ _ h => ⟨_, _, rfl, h.extendFromSlice a⟩
theorem pushAll (a : Bytes) : Marks (W.push (memoTarget.pushAll a)) (some [.put a]) :=
  fun _ _ h => ⟨_, _, rfl, h.extendFromSlice a⟩

theorem addCut {f : W MemoBuilder} {a : Option (List Mark)} (hf : Marks f a) :
    Marks (W.add f (W.resolveZero memoTarget)) (a.map (· ++ [.cut])) :=
  (hf.add resolveZero).cast (by cases a <;> rfl)

end Marks

/-- A segment of its own. -/
def Mark.leaf (bs : Bytes) : List Mark := [.put bs, .cut]

/-- Writing with `c` does `m x` to the segments. -/
def Codec.Marks {α : Type} (c : Codec α) (m : α → Option (List Mark)) : Prop := ∀ x, Verif.Marks (c.write memoTarget x) (m x)
def VCodec.Marks {β : Type} (v : VCodec β) (m : TagWidth → β → Option (List Mark)) : Prop :=
  ∀ w x, Verif.Marks (v.write w memoTarget x) (m w x)
def FCodec.Marks {β : Type} (f : FCodec β) (m : β → Option (List Mark)) : Prop := ∀ x, Verif.Marks (f.write memoTarget x) (m x)

mutual
/-- The marks of a value. -/
noncomputable def Schema.marks (cfg : Cfg) : (s : Schema) → s.Val → Option (List Mark)
  | .unit => fun _ => some []
  | .bool => fun x => (Enc.bool x).map Mark.leaf
  | .int t => fun x => (Enc.int t x).map Mark.leaf
  | .f64 => fun x => (Enc.f64 x).map Mark.leaf
  | .rangedInt t min max => fun x => (Enc.rangedInt t min max x).map fun b => Mark.leaf b ++ [.cut]
  | .rangedFloat _ _ => fun x => (Enc.f64 x).map Mark.leaf
  | .zarithN => fun x => (Enc.zarithN x).map Mark.leaf
  | .zarithZ => fun x => (Enc.zarithZ x).map Mark.leaf
  | .bytes => fun x => (Enc.bytes x).map Mark.leaf
  | .vecU8 => fun x => (Enc.bytes x).map Mark.leaf
  | .string => fun x => (Enc.string x).map Mark.leaf
  | .fixedBytes n => fun x => (Enc.byteArr n x).map Mark.leaf
  | .fixedString n => fun x => (Enc.byteArr n x).map Mark.leaf
  | .option s => fun x => match x with
    | none => some (Mark.leaf [0])
    | some x => (s.marks cfg x).map fun m => [Mark.put [0xff]] ++ m ++ [.cut]
  | .nullable s => fun x => match x with
    | none => some [.cut]
    | some x => (s.marks cfg x).map (· ++ [.cut])
  | .dynamic S s => fun x => do
    let l ← Enc.lenOf cfg (s.codec cfg).estimate (s.out cfg) x
    if l ≤ S.maxLen then
      let m ← s.marks cfg x
      pure (Mark.leaf (toBe S.len l) ++ (if S = .u30 then [.cut] else []) ++ (m ++ [.cut]))
    else none
  | .vpadded _ s => s.marks cfg
  | .padded n s => fun x => (s.marks cfg x).map (· ++ Mark.leaf (List.replicate n 0))
  | .seq s => fun xs => (xs.mapM (s.marks cfg)).map (·.flatten ++ [.cut])
  | .fixSeq _ s => fun xs => (xs.mapM (s.marks cfg)).map (·.flatten ++ [.cut])
  | .limSeq _ s => fun xs => (xs.mapM (s.marks cfg)).map (·.flatten ++ [.cut])
  | .autobox s => s.marks cfg
  | .hole _ => fun x => nomatch x
  | .cstyle w tags => fun x => (Enc.cstyle w tags x).map Mark.leaf
  | .data w vs => vs.marks cfg w
  | .record fs => fun x => (fs.marks cfg x).map (· ++ [.cut])
noncomputable def Variants.marks (cfg : Cfg) : (vs : Variants) → TagWidth → vs.Val → Option (List Mark)
  | .nil => fun _ x => nomatch x
  | .cons tag s vs => fun w x => match x with
    | .inl x => (s.marks cfg x).map fun m => Mark.leaf (toBe w.len tag) ++ (m ++ [.cut])
    | .inr y => vs.marks cfg w y
noncomputable def Fields.marks (cfg : Cfg) : (fs : Fields) → fs.Val → Option (List Mark)
  | .nil => fun _ => some []
  | .cons s fs => fun x => do
    let a ← s.marks cfg x.1
    let b ← fs.marks cfg x.2
    pure (a ++ b)
end

namespace Codec

theorem pushAll_leaf (bs : Bytes) : Verif.Marks (W.add (W.push (memoTarget.pushAll bs)) (W.resolveZero memoTarget))
    (some (Mark.leaf bs)) := (Marks.pushAll bs).addCut

theorem int_marks (t : IntTy) : (int t).Marks fun x => (Enc.int t x).map Mark.leaf := fun x => pushAll_leaf _

theorem rangedInt_marks (t : IntTy) (min max : Int) :
    (rangedInt t min max).Marks fun x => (Enc.rangedInt t min max x).map fun b => Mark.leaf b ++ [.cut] := fun x => by
  simp only [rangedInt, RangedInt.toUnderlying, Enc.rangedInt]
  cases h : restrict (t.toInt x) min max with
  | ok u =>
    rw [if_pos (restrict_ok_iff.mp h)]
    exact (int_marks t x).addCut
  | error e =>
    rw [if_neg fun hr => by rw [restrict_ok_iff.mpr hr] at h; cases h]
    exact Marks.panic

theorem zarithN_marks : zarithN.Marks fun x => (Enc.zarithN x).map Mark.leaf := fun x =>
  (Codec.pushAll_leaf (serializeN x)).cast (by rw [serializeN_eq]; rfl)

theorem zarithZ_marks : zarithZ.Marks fun x => (Enc.zarithZ x).map Mark.leaf := fun x =>
  (Codec.pushAll_leaf (serializeZ x)).cast (by rw [serializeZ_eq]; rfl)

theorem writeList_marks {α : Type} {c : Codec α} {m : α → Option (List Mark)} (h : c.Marks m) :
    ∀ xs : List α, Verif.Marks (c.writeList memoTarget xs) ((xs.mapM m).map List.flatten)
  | [] => Marks.zero
  | x :: xs => ((h x).add (writeList_marks h xs)).cast (by
      rw [List.mapM_cons]
      cases m x with
      | none => rfl
      | some a => cases xs.mapM m <;> rfl)

theorem list_marks {α : Type} {c : Codec α} {m : α → Option (List Mark)} (h : c.Marks m) (xs : List α) :
    Verif.Marks (W.add (c.writeList memoTarget xs) (W.resolveZero memoTarget))
      ((xs.mapM m).map (·.flatten ++ [.cut])) :=
  ((writeList_marks h xs).addCut).cast (by cases xs.mapM m <;> rfl)

end Codec

theorem LenPref.write_marks (S : LenPref) {l : Nat} (hl : l ≤ S.maxLen) :
    Marks (S.write memoTarget l) (some (Mark.leaf (toBe S.len l) ++ (if S = .u30 then [.cut] else []))) := by
  cases S with
  | u8 =>
    simp only [LenPref.maxLen] at hl
    rw [LenPref.write, IntTy.tryFrom_nat rfl (by simp only [IntTy.len]; omega)]
    refine (Codec.int_marks .u8 _).cast ?_
    simp only [Enc.int, IntTy.len, BitVec.toNat_ofNat, LenPref.len]
    rw [Nat.mod_eq_of_lt (by omega)]
    rfl
  | u16 =>
    simp only [LenPref.maxLen] at hl
    rw [LenPref.write, IntTy.tryFrom_nat rfl (by simp only [IntTy.len]; omega)]
    refine (Codec.int_marks .u16 _).cast ?_
    simp only [Enc.int, IntTy.len, BitVec.toNat_ofNat, LenPref.len]
    rw [Nat.mod_eq_of_lt (by omega)]
    rfl
  | u30 =>
    simp only [LenPref.maxLen, LenPref.u30Max] at hl
    have hr : restrict (l : Int) 0 LenPref.u30Max = .ok () := by
      rw [restrict_ok_iff]
      simp only [Enc.inRange, LenPref.u30Max, Int.lt_irrefl, if_false]
      omega
    rw [LenPref.write]
    simp only [hr]
    rw [IntTy.tryFrom_nat rfl (by simp only [IntTy.len]; omega)]
    refine (Codec.rangedInt_marks .u32 0 LenPref.u30Max _).cast ?_
    have hn : (BitVec.ofNat (8 * IntTy.u32.len) l).toNat = l := by
      simp only [IntTy.len, BitVec.toNat_ofNat]
      rw [Nat.mod_eq_of_lt (by omega)]
    have hv : IntTy.toInt .u32 (BitVec.ofNat _ l) = l := by
      simp only [IntTy.toInt, IntTy.signed, Bool.false_eq_true, if_false, hn]
    simp only [Enc.rangedInt, hv, hn]
    rw [if_pos (restrict_ok_iff.mp hr)]
    rfl

mutual
theorem Schema.codec_marks (cfg : Cfg) : ∀ s : Schema, (s.codec cfg).Marks (s.marks cfg)
  | .unit => fun _ => Marks.zero
  | .bool => fun x => by
    refine ((Marks.pushOne _).addCut).cast ?_
    cases x <;> rfl
  | .int t => Codec.int_marks t
  | .f64 => Codec.int_marks .u64
  | .rangedInt t min max => Codec.rangedInt_marks t min max
  | .rangedFloat min max => Codec.int_marks .u64
  | .zarithN => Codec.zarithN_marks
  | .zarithZ => Codec.zarithZ_marks
  | .bytes => fun x => Codec.pushAll_leaf _
  | .vecU8 => fun x => Codec.pushAll_leaf _
  | .string => fun x => Codec.pushAll_leaf _
  | .fixedBytes n => fun x => (Marks.pushMany _).addCut
  | .fixedString n => fun x => Codec.pushAll_leaf _
  | .option s => fun x => match x with
    | none => (Marks.pushOne _).addCut
    | some x => (((Marks.pushOne _).add (s.codec_marks cfg x)).addCut).cast (by
        show _ = (s.marks cfg x).map fun m => [Mark.put [0xff]] ++ m ++ [.cut]
        cases s.marks cfg x <;> rfl)
  | .nullable s => fun x => match x with
    | none => Marks.resolveZero
    | some x => (s.codec_marks cfg x).addCut
  | .dynamic S s => fun x => by
    show Marks ((Codec.dynamic cfg S (s.codec cfg)).write memoTarget x) (do
      let l ← Enc.lenOf cfg (s.codec cfg).estimate (s.out cfg) x
      if l ≤ S.maxLen then
        let m ← s.marks cfg x
        pure (Mark.leaf (toBe S.len l) ++ (if S = .u30 then [.cut] else []) ++ (m ++ [.cut]))
      else none)
    simp only [Codec.dynamic, Codec.encLen_eq (s.writes_out cfg)]
    cases Enc.lenOf cfg (s.codec cfg).estimate (s.out cfg) x with
    | none => exact Marks.panic
    | some l =>
      simp only [Option.bind_eq_bind, Option.bind_some]
      split
      · rename_i hl
        intro g t hr
        have := ((S.write_marks hl).add (s.codec_marks cfg x).addCut) g t hr
        generalize s.marks cfg x = o at this ⊢
        cases o <;> exact this
      · exact Marks.panic
  | .vpadded n s => s.codec_marks cfg
  | .padded n s => fun x => (((s.codec_marks cfg x).add (Marks.pushMany _)).addCut).cast (by
      show _ = (s.marks cfg x).map (· ++ Mark.leaf (List.replicate n 0))
      cases s.marks cfg x <;> simp [Mark.leaf])
  | .seq s => Codec.list_marks (s.codec_marks cfg)
  | .fixSeq n s => Codec.list_marks (s.codec_marks cfg)
  | .limSeq n s => Codec.list_marks (s.codec_marks cfg)
  | .autobox s => s.codec_marks cfg
  | .hole _ => fun x => nomatch x
  | .cstyle w tags => fun x => Codec.pushAll_leaf _
  | .data w vs => fun x => vs.codec_marks cfg w x
  | .record fs => fun x => (fs.codec_marks cfg x).addCut
theorem Variants.codec_marks (cfg : Cfg) : ∀ vs : Variants, (vs.codec cfg).Marks (vs.marks cfg)
  | .nil => fun _ x => nomatch x
  | .cons tag s vs => fun w x => match x with
    | .inl x => ((Codec.pushAll_leaf _).add (s.codec_marks cfg x).addCut).cast (by
        show _ = (s.marks cfg x).map fun m => Mark.leaf (toBe w.len tag) ++ (m ++ [.cut])
        cases s.marks cfg x <;> rfl)
    | .inr y => vs.codec_marks cfg w y
theorem Fields.codec_marks (cfg : Cfg) : ∀ fs : Fields, (fs.codec cfg).Marks (fs.marks cfg)
  | .nil => fun _ => Marks.zero
  | .cons s fs => fun x => (s.codec_marks cfg x.1).add (fs.codec_marks cfg x.2)
end

theorem Mark.closed_leaf (bs : Bytes) : Mark.Closed (Mark.leaf bs) := rfl

theorem Mark.closed_flatten : ∀ ms : List (List Mark), (∀ m ∈ ms, Mark.Closed m) → Mark.Closed ms.flatten
  | [], _ => rfl
  | m :: ms, h => by
    rw [List.flatten_cons]
    exact Mark.closed_append (h m (by simp)) (Mark.closed_flatten ms fun x hx => h x (by simp [hx]))

mutual
/-- A value written to a builder without open segment leaves none open. -/
theorem Schema.marks_closed (cfg : Cfg) : ∀ (s : Schema) (x : s.Val) (ms : List Mark), s.marks cfg x = some ms → Mark.Closed ms
  | .unit, _, ms, h => by cases h; rfl
  | .bool, x, ms, h | .int _, x, ms, h | .f64, x, ms, h | .rangedFloat _ _, x, ms, h | .zarithN, x, ms, h
  | .zarithZ, x, ms, h | .bytes, x, ms, h | .vecU8, x, ms, h | .string, x, ms, h | .fixedBytes _, x, ms, h
  | .fixedString _, x, ms, h | .cstyle _ _, x, ms, h => by cases h; rfl
  | .rangedInt t min max, x, ms, h => by
    obtain ⟨b, _, rfl⟩ := Option.map_eq_some_iff.mp h
    exact Mark.closed_cut _
  | .option s, none, ms, h => by cases h; rfl
  | .option s, some x, ms, h => by
    obtain ⟨m, _, rfl⟩ := Option.map_eq_some_iff.mp h
    exact Mark.closed_cut _
  | .nullable s, none, ms, h => by cases h; rfl
  | .nullable s, some x, ms, h => by
    obtain ⟨m, _, rfl⟩ := Option.map_eq_some_iff.mp h
    exact Mark.closed_cut _
  | .dynamic S s, x, ms, h => by
    obtain ⟨l, _, h⟩ := Option.bind_eq_some_iff.mp h
    split at h
    · obtain ⟨m, _, h⟩ := Option.bind_eq_some_iff.mp h
      cases h
      rw [← List.append_assoc]
      exact Mark.closed_cut _
    · cases h
  | .vpadded _ s, x, ms, h => s.marks_closed cfg x ms h
  | .padded n s, x, ms, h => by
    obtain ⟨m, _, rfl⟩ := Option.map_eq_some_iff.mp h
    exact Mark.closed_cut (m ++ [.put (List.replicate n 0)]) |> fun h => by simpa [Mark.leaf] using h
  | .seq s, x, ms, h | .fixSeq _ s, x, ms, h | .limSeq _ s, x, ms, h => by
    obtain ⟨m, _, rfl⟩ := Option.map_eq_some_iff.mp h
    exact Mark.closed_cut _
  | .autobox s, x, ms, h => s.marks_closed cfg x ms h
  | .hole _, x, _, _ => nomatch x
  | .data w vs, x, ms, h => vs.marks_closed cfg w x ms h
  | .record fs, x, ms, h => by
    obtain ⟨m, _, rfl⟩ := Option.map_eq_some_iff.mp h
    exact Mark.closed_cut _
theorem Variants.marks_closed (cfg : Cfg) : ∀ (vs : Variants) (w : TagWidth) (x : vs.Val) (ms : List Mark),
    vs.marks cfg w x = some ms → Mark.Closed ms
  | .nil, _, x, _, _ => nomatch x
  | .cons tag s vs, w, .inl x, ms, h => by
    obtain ⟨m, _, rfl⟩ := Option.map_eq_some_iff.mp h
    rw [← List.append_assoc]
    exact Mark.closed_cut _
  | .cons tag s vs, w, .inr y, ms, h => vs.marks_closed cfg w y ms h
end

end Verif
