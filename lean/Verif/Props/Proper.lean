import Verif.Spec.Parts
import Verif.Unchecked
import Verif.Props.Recursive
import Verif.Props.Text
import Verif.Props.Ranged
/-
C87: which values can be encoded, and which can come out of decoding; functions that skip the checks.
-/
namespace Verif.Props

open Codec

/-! ### what is asked of a part -/

/-- The number is in its range, the sequence has as many elements as it should. -/
def Proper : (s : Schema) → s.Val → Prop
  | .rangedInt t min max => fun x => min ≤ number t min x ∧ number t min x ≤ max
  | .rangedFloat min max => fun x => FloatLe min x ∧ FloatLe x max
  | .fixSeq n s => fun (xs : List s.Val) => xs.length = n
  | .limSeq n s => fun (xs : List s.Val) => xs.length ≤ n
  | _ => fun _ => True

/-- The integer is in its range, the contents are no longer than the length prefix can say. -/
def Sayable (cfg : Cfg) : (s : Schema) → s.Val → Prop
  | .rangedInt t min max => fun x => min ≤ number t min x ∧ number t min x ≤ max
  | .dynamic S s => fun (x : s.Val) => ∀ b, (s.codec cfg).toBytes x = some b → b.length ≤ S.maxLen
  | _ => fun _ => True

/-- The same for the length that `enc_len` gives, which is an estimate with the feature `enc_len_estimable_override`. -/
def Announceable (cfg : Cfg) : (s : Schema) → s.Val → Prop
  | .rangedInt t min max => fun x => min ≤ number t min x ∧ number t min x ≤ max
  | .dynamic S s => fun (x : s.Val) => ∀ l, (s.codec cfg).encLen cfg x = some l → l ≤ S.maxLen
  | _ => fun _ => True

/-! ### lemmas -/

theorem cat_ne_none {a b : Option Bytes} : Enc.cat a b ≠ none ↔ a ≠ none ∧ b ≠ none := by
  cases a <;> cases b <;> simp [Enc.cat]

theorem list_ne_none {α : Type} {e : Enc α} : ∀ xs : List α, Enc.list e xs ≠ none ↔ ∀ x ∈ xs, e x ≠ none
  | [] => by simp [Enc.list]
  | x :: xs => by rw [Enc.list, cat_ne_none, list_ne_none xs]; simp

theorem imp_yields {α : Type} {d : D α} {V V' : α → Prop} (h : Yields d V) (hi : ∀ a, V a → V' a) : Yields d V' :=
  fun v a r hd => hi a (h v a r hd)

mutual
theorem Schema.yields_proper (cfg : Cfg) : ∀ s : Schema, Yields (s.dec cfg) (s.eachPart Proper)
  | .unit | .bool | .int _ | .f64 | .zarithN | .zarithZ | .bytes | .vecU8 | .string | .fixedBytes _
  | .fixedString _ | .cstyle _ _ => fun _ _ _ _ => trivial
  | .rangedInt t min max => fun v a r h => by
    obtain ⟨x, r', h1, h2⟩ := D.bind_eq_ok.mp h
    unfold Schema.eachPart
    cases hr : restrict (t.toInt x) min max with
    | error e => rw [hr] at h2; cases h2
    | ok y => rw [hr] at h2; cases h2; exact (inRange_iff t _).mp (restrict_ok_iff.mp hr)
  | .rangedFloat min max => fun v a r h => by
    have h1 := (Canonical.rangedFloat_ok.mp h).2
    exact ⟨(le_iff_floatLe _ _).mp h1.1, (le_iff_floatLe _ _).mp h1.2.1⟩
  | .option s => imp_yields (.option (Schema.yields_proper cfg s)) fun _ h => ⟨trivial, h⟩
  | .nullable s => imp_yields (.nullable (Schema.yields_proper cfg s)) fun _ h => ⟨trivial, h⟩
  | .dynamic S s => imp_yields (.dynamic S (Schema.yields_proper cfg s)) fun _ h => ⟨trivial, h⟩
  | .vpadded n s => imp_yields (.vpadded cfg n (Schema.yields_proper cfg s)) fun _ h => ⟨trivial, h⟩
  | .padded n s => imp_yields (.padded cfg n (Schema.yields_proper cfg s)) fun _ h => ⟨trivial, h⟩
  | .seq s => imp_yields (.seq (Schema.yields_proper cfg s) (s.readsPrefix cfg)) fun _ h => ⟨trivial, h⟩
  | .fixSeq n s => .fixSeq n (Schema.yields_proper cfg s)
  | .limSeq n s => .limSeq n (Schema.yields_proper cfg s)
  | .autobox s => imp_yields (Schema.yields_proper cfg s) fun _ h => ⟨trivial, h⟩
  | .hole _ => fun _ _ _ h => by cases h
  | .data _ vs => imp_yields (.bind (.triv _) fun t _ => Variants.yields_proper cfg vs t) fun _ h => ⟨trivial, h⟩
  | .record fs => imp_yields (Fields.yields_proper cfg fs) fun _ h => ⟨trivial, h⟩
theorem Variants.yields_proper (cfg : Cfg) : ∀ (vs : Variants) (t : Nat), Yields (vs.dec cfg t) (vs.eachPart Proper)
  | .nil, _ => fun _ _ _ _ => trivial
  | .cons tag s vs, t => imp_yields (.vcons tag (Schema.yields_proper cfg s) (Variants.yields_proper cfg vs) t)
      fun a h => by
        rcases a with a | a
        · exact ⟨fun y hy => by cases hy; exact h, nofun⟩
        · exact ⟨nofun, fun y hy => by cases hy; exact h⟩
theorem Fields.yields_proper (cfg : Cfg) : ∀ fs : Fields, Yields (fs.dec cfg) (fs.eachPart Proper)
  | .nil => fun _ _ _ _ => trivial
  | .cons s fs => .bind (Schema.yields_proper cfg s) fun _ ha => .bind (Fields.yields_proper cfg fs) fun _ hb => .pure ⟨ha, hb⟩
end

mutual
theorem Schema.wire_iff (cfg : Cfg) (hcfg : cfg.encLenOverride = false) : ∀ (s : Schema) (x : s.Val),
    s.wire x ≠ none ↔ s.eachPart (Sayable cfg) x
  | .unit, _ | .bool, _ | .int _, _ | .f64, _ | .zarithN, _ | .zarithZ, _ | .bytes, _ | .vecU8, _ | .string, _
  | .fixedBytes _, _ | .fixedString _, _ | .cstyle _ _, _ | .rangedFloat _ _, _ => ⟨fun _ => trivial, fun _ => nofun⟩
  | .rangedInt t min max, x => by
    have key : ∀ y : t.Val, Enc.rangedInt t min max y ≠ none ↔ min ≤ number t min y ∧ number t min y ≤ max := fun y => by
      rw [← inRange_iff, Enc.rangedInt]
      by_cases h : Enc.inRange min max (t.toInt y) <;> simp [h]
    exact key x
  | .option s, x => by
    rcases (x : Option s.Val) with _ | x
    · exact ⟨fun _ => ⟨trivial, nofun⟩, fun _ => nofun⟩
    · refine (cat_ne_none.trans ((and_iff_right nofun).trans (Schema.wire_iff cfg hcfg s x))).trans ?_
      exact ⟨fun h => ⟨trivial, fun y hy => by cases hy; exact h⟩, fun h => h.2 x rfl⟩
  | .nullable s, x => by
    rcases (x : Option s.Val) with _ | x
    · exact ⟨fun _ => ⟨trivial, nofun⟩, fun _ => nofun⟩
    · refine (Schema.wire_iff cfg hcfg s x).trans ?_
      exact ⟨fun h => ⟨trivial, fun y hy => by cases hy; exact h⟩, fun h => h.2 x rfl⟩
  | .dynamic S s, x => by
    have key : ∀ y : s.Val, Enc.dynamic S (fun x => (s.wire x).map List.length) s.wire y ≠ none ↔
        (∀ b, (s.codec cfg).toBytes y = some b → b.length ≤ S.maxLen) ∧ s.eachPart (Sayable cfg) y := fun y => by
      rw [toBytes_wire (.inl hcfg), ← Schema.wire_iff cfg hcfg s y]
      simp only [Enc.dynamic]
      cases s.wire y with
      | none => simp
      | some b => by_cases h : b.length ≤ S.maxLen <;> simp [h, Enc.cat]
    exact key x
  | .vpadded n s, x => (Schema.wire_iff cfg hcfg s x).trans (and_iff_right trivial).symm
  | .padded n s, x => (cat_ne_none.trans ((and_iff_left nofun).trans (Schema.wire_iff cfg hcfg s x))).trans
      (and_iff_right trivial).symm
  | .seq s, xs => ((list_ne_none (e := s.wire) xs).trans
      (forall_congr' fun y => forall_congr' fun _ => Schema.wire_iff cfg hcfg s y)).trans (and_iff_right trivial).symm
  | .fixSeq _ s, xs => ((list_ne_none (e := s.wire) xs).trans
      (forall_congr' fun y => forall_congr' fun _ => Schema.wire_iff cfg hcfg s y)).trans (and_iff_right trivial).symm
  | .limSeq _ s, xs => ((list_ne_none (e := s.wire) xs).trans
      (forall_congr' fun y => forall_congr' fun _ => Schema.wire_iff cfg hcfg s y)).trans (and_iff_right trivial).symm
  | .autobox s, x => (Schema.wire_iff cfg hcfg s x).trans (and_iff_right trivial).symm
  | .hole _, x => nomatch (x : Empty)
  | .data w vs, x => (Variants.wire_iff cfg hcfg vs w x).trans (and_iff_right trivial).symm
  | .record fs, x => (Fields.wire_iff cfg hcfg fs x).trans (and_iff_right trivial).symm
theorem Variants.wire_iff (cfg : Cfg) (hcfg : cfg.encLenOverride = false) : ∀ (vs : Variants) (w : TagWidth) (x : vs.Val),
    vs.wire w x ≠ none ↔ vs.eachPart (Sayable cfg) x
  | .nil, _, x => nomatch (x : Empty)
  | .cons tag s vs, w, x => by
    rcases (x : s.Val ⊕ vs.Val) with x | x
    · refine (cat_ne_none.trans ((and_iff_right nofun).trans (Schema.wire_iff cfg hcfg s x))).trans ?_
      exact ⟨fun h => ⟨fun y hy => by cases hy; exact h, nofun⟩, fun h => h.1 x rfl⟩
    · refine (Variants.wire_iff cfg hcfg vs w x).trans ?_
      exact ⟨fun h => ⟨nofun, fun y hy => by cases hy; exact h⟩, fun h => h.2 x rfl⟩
theorem Fields.wire_iff (cfg : Cfg) (hcfg : cfg.encLenOverride = false) : ∀ (fs : Fields) (x : fs.Val),
    fs.wire x ≠ none ↔ fs.eachPart (Sayable cfg) x
  | .nil, _ => ⟨fun _ => trivial, fun _ => nofun⟩
  | .cons s fs, x => cat_ne_none.trans (and_congr (Schema.wire_iff cfg hcfg s x.1) (Fields.wire_iff cfg hcfg fs x.2))
end

mutual
theorem Schema.out_iff (cfg : Cfg) : ∀ (s : Schema) (x : s.Val),
    s.out cfg x ≠ none ↔ s.eachPart (Announceable cfg) x
  | .unit, _ | .bool, _ | .int _, _ | .f64, _ | .zarithN, _ | .zarithZ, _ | .bytes, _ | .vecU8, _ | .string, _
  | .fixedBytes _, _ | .fixedString _, _ | .cstyle _ _, _ | .rangedFloat _ _, _ => ⟨fun _ => trivial, fun _ => nofun⟩
  | .rangedInt t min max, x => by
    have key : ∀ y : t.Val, Enc.rangedInt t min max y ≠ none ↔ min ≤ number t min y ∧ number t min y ≤ max := fun y => by
      rw [← inRange_iff, Enc.rangedInt]
      by_cases h : Enc.inRange min max (t.toInt y) <;> simp [h]
    exact key x
  | .option s, x => by
    rcases (x : Option s.Val) with _ | x
    · exact ⟨fun _ => ⟨trivial, nofun⟩, fun _ => nofun⟩
    · refine (cat_ne_none.trans ((and_iff_right nofun).trans (Schema.out_iff cfg s x))).trans ?_
      exact ⟨fun h => ⟨trivial, fun y hy => by cases hy; exact h⟩, fun h => h.2 x rfl⟩
  | .nullable s, x => by
    rcases (x : Option s.Val) with _ | x
    · exact ⟨fun _ => ⟨trivial, nofun⟩, fun _ => nofun⟩
    · refine (Schema.out_iff cfg s x).trans ?_
      exact ⟨fun h => ⟨trivial, fun y hy => by cases hy; exact h⟩, fun h => h.2 x rfl⟩
  | .dynamic S s, x => by
    have key : ∀ y : s.Val, Enc.dynamic S (Enc.lenOf cfg (s.codec cfg).estimate (s.out cfg)) (s.out cfg) y ≠ none ↔
        (∀ l, (s.codec cfg).encLen cfg y = some l → l ≤ S.maxLen) ∧ s.eachPart (Announceable cfg) y := fun y => by
      rw [Codec.encLen_eq (s.writes_out cfg), ← Schema.out_iff cfg s y]
      simp only [Enc.dynamic]
      cases hl : Enc.lenOf cfg (s.codec cfg).estimate (s.out cfg) y with
      | none =>
        simp only [Enc.lenOf] at hl
        split at hl
        · cases hl
        · rw [Option.map_eq_none_iff] at hl
          simp [hl]
      | some l =>
        cases s.out cfg y with
        | none => simp [Enc.cat]
        | some b => by_cases h : l ≤ S.maxLen <;> simp [h, Enc.cat]
    exact key x
  | .vpadded n s, x => (Schema.out_iff cfg s x).trans (and_iff_right trivial).symm
  | .padded n s, x => (cat_ne_none.trans ((and_iff_left nofun).trans (Schema.out_iff cfg s x))).trans
      (and_iff_right trivial).symm
  | .seq s, xs => ((list_ne_none (e := s.out cfg) xs).trans
      (forall_congr' fun y => forall_congr' fun _ => Schema.out_iff cfg s y)).trans (and_iff_right trivial).symm
  | .fixSeq _ s, xs => ((list_ne_none (e := s.out cfg) xs).trans
      (forall_congr' fun y => forall_congr' fun _ => Schema.out_iff cfg s y)).trans (and_iff_right trivial).symm
  | .limSeq _ s, xs => ((list_ne_none (e := s.out cfg) xs).trans
      (forall_congr' fun y => forall_congr' fun _ => Schema.out_iff cfg s y)).trans (and_iff_right trivial).symm
  | .autobox s, x => (Schema.out_iff cfg s x).trans (and_iff_right trivial).symm
  | .hole _, x => nomatch (x : Empty)
  | .data w vs, x => (Variants.out_iff cfg vs w x).trans (and_iff_right trivial).symm
  | .record fs, x => (Fields.out_iff cfg fs x).trans (and_iff_right trivial).symm
theorem Variants.out_iff (cfg : Cfg) : ∀ (vs : Variants) (w : TagWidth) (x : vs.Val),
    vs.out cfg w x ≠ none ↔ vs.eachPart (Announceable cfg) x
  | .nil, _, x => nomatch (x : Empty)
  | .cons tag s vs, w, x => by
    rcases (x : s.Val ⊕ vs.Val) with x | x
    · refine (cat_ne_none.trans ((and_iff_right nofun).trans (Schema.out_iff cfg s x))).trans ?_
      exact ⟨fun h => ⟨fun y hy => by cases hy; exact h, nofun⟩, fun h => h.1 x rfl⟩
    · refine (Variants.out_iff cfg vs w x).trans ?_
      exact ⟨fun h => ⟨nofun, fun y hy => by cases hy; exact h⟩, fun h => h.2 x rfl⟩
theorem Fields.out_iff (cfg : Cfg) : ∀ (fs : Fields) (x : fs.Val),
    fs.out cfg x ≠ none ↔ fs.eachPart (Announceable cfg) x
  | .nil, _ => ⟨fun _ => trivial, fun _ => nofun⟩
  | .cons s fs, x => cat_ne_none.trans (and_congr (Schema.out_iff cfg s x.1) (Fields.out_iff cfg fs x.2))
end

mutual
theorem Schema.proper_valid : ∀ (s : Schema) (x : s.Val), s.eachPart Proper x → s.Valid x
  | .unit, _, _ | .bool, _, _ | .int _, _, _ | .f64, _, _ | .zarithN, _, _ | .zarithZ, _, _ | .bytes, _, _ | .vecU8, _, _
  | .string, _, _ | .fixedBytes _, _, _ | .fixedString _, _, _ | .cstyle _ _, _, _ | .rangedInt _ _ _, _, _ => trivial
  | .rangedFloat min max, x, h => ⟨(le_iff_floatLe _ _).mpr h.1, (le_iff_floatLe _ _).mpr h.2,
      (le_iff_floatLe _ _).mpr (floatLe_trans h.1 h.2)⟩
  | .option s, _, h => fun y hy => Schema.proper_valid s y (h.2 y hy)
  | .nullable s, _, h => fun y hy => Schema.proper_valid s y (h.2 y hy)
  | .dynamic _ s, x, h => Schema.proper_valid s x h.2
  | .vpadded _ s, x, h => Schema.proper_valid s x h.2
  | .padded _ s, x, h => Schema.proper_valid s x h.2
  | .seq s, _, h => fun y hy => Schema.proper_valid s y (h.2 y hy)
  | .fixSeq _ s, _, h => ⟨h.1, fun y hy => Schema.proper_valid s y (h.2 y hy)⟩
  | .limSeq _ s, _, h => ⟨h.1, fun y hy => Schema.proper_valid s y (h.2 y hy)⟩
  | .autobox s, x, h => Schema.proper_valid s x h.2
  | .hole _, x, _ => nomatch (x : Empty)
  | .data _ vs, x, h => Variants.proper_valid vs x h.2
  | .record fs, x, h => Fields.proper_valid fs x h.2
theorem Variants.proper_valid : ∀ (vs : Variants) (x : vs.Val), vs.eachPart Proper x → vs.Valid x
  | .nil, _, _ => trivial
  | .cons _ s vs, x, h => by
    rcases (x : s.Val ⊕ vs.Val) with x | x
    · exact Schema.proper_valid s x (h.1 x rfl)
    · exact Variants.proper_valid vs x (h.2 x rfl)
theorem Fields.proper_valid : ∀ (fs : Fields) (x : fs.Val), fs.eachPart Proper x → fs.Valid x
  | .nil, _, _ => trivial
  | .cons s fs, x, h => ⟨Schema.proper_valid s x.1 h.1, Fields.proper_valid fs x.2 h.2⟩
end

/-! ### C87 -/

/-- C87: of a decoded value all parts are proper: numbers are in range, sequences have as many elements as they should. -/
theorem C87_decoded (cfg : Cfg) (s : Schema) (hz : s.sized = true) (k : Backend) (v : Bytes) (vs : List Bytes)
    (st st' : k.State) (hs : k.Holds v vs st) (x : s.Val) (he : (s.codec cfg).parse (k.ops cfg.prof) st = .ok x st') :
    s.eachPart Proper x := by
  obtain ⟨rest, h1, _⟩ := s.inv cfg hz hs he
  exact Schema.yields_proper cfg s _ _ _ h1

/-- C87: a value can be encoded exactly if all its ranged integers are in range and all its `Dynamic` contents fit. -/
theorem C87_encodable (cfg : Cfg) (hcfg : cfg.encLenOverride = false) (s : Schema) (x : s.Val) :
    (s.codec cfg).toBytes x ≠ none ↔ s.eachPart (Sayable cfg) x := by
  rw [toBytes_wire (.inl hcfg)]
  exact Schema.wire_iff cfg hcfg s x

/-- C87 with all features: what counts is the length that `enc_len` gives. -/
theorem C87_announced (cfg : Cfg) (s : Schema) (x : s.Val) :
    (s.codec cfg).toBytes x ≠ none ↔ s.eachPart (Announceable cfg) x := by
  rw [Writes.toBytes (s.writes_out cfg)]
  exact Schema.out_iff cfg s x

/-- C87: a value of proper parts that fit their prefixes is encoded, and decoded back by all parsers. -/
theorem C87_round_trip (cfg : Cfg) (hcfg : cfg.encLenOverride = false) (s : Schema) (ht : s.tagsOk) {tl : Tail}
    (htl : s.tail = some tl) (x : s.Val) (hp : s.eachPart Proper x) (hf : s.eachPart (Sayable cfg) x) :
    ∃ b, (s.codec cfg).toBytes x = some b ∧ ∀ rest, tl.Allows rest → (s.codec cfg).Decodes cfg (b ++ rest) x rest := by
  cases hb : (s.codec cfg).toBytes x with
  | none => exact absurd hb ((C87_encodable cfg hcfg s x).mpr hf)
  | some b => exact ⟨b, rfl, fun rest hr =>
      C51_round_trip_partial cfg s ht htl x (Schema.proper_valid s x hp) (.inl hcfg) b hb rest hr⟩

/-- C87: no other values make it through a message: whatever was done to make the value. -/
theorem C87_needed (cfg : Cfg) (hcfg : cfg.encLenOverride = false) (s : Schema) (hz : s.sized = true) (x : s.Val)
    (hx : ¬ (s.eachPart Proper x ∧ s.eachPart (Sayable cfg) x)) :
    (s.codec cfg).toBytes x = none ∨
    ∀ (k : Backend) (v : Bytes) (vs : List Bytes) (st st' : k.State), k.Holds v vs st →
      (s.codec cfg).parse (k.ops cfg.prof) st ≠ .ok x st' := by
  by_cases hb : (s.codec cfg).toBytes x = none
  · exact .inl hb
  · exact .inr fun k v vs st st' hs he =>
      hx ⟨C87_decoded cfg s hz k v vs st st' hs x he, (C87_encodable cfg hcfg s x).mp hb⟩

/-- C87 with any features: proper parts whose announced lengths fit are encoded; they come back, too, unless length estimates are
trusted and an `N` of value 0 is under a length prefix. -/
theorem C87_announced_round_trip (cfg : Cfg) (s : Schema) (ht : s.tagsOk) {tl : Tail} (htl : s.tail = some tl) (x : s.Val)
    (hcfg : cfg.encLenOverride = false ∨ s.PrefixOk x) (hp : s.eachPart Proper x) (hf : s.eachPart (Announceable cfg) x) :
    ∃ b, (s.codec cfg).toBytes x = some b ∧ ∀ rest, tl.Allows rest → (s.codec cfg).Decodes cfg (b ++ rest) x rest := by
  cases hb : (s.codec cfg).toBytes x with
  | none => exact absurd hb ((C87_announced cfg s x).mpr hf)
  | some b => exact ⟨b, rfl, fun rest hr =>
      C51_round_trip_partial cfg s ht htl x (Schema.proper_valid s x hp) hcfg b hb rest hr⟩

/-- C87 with any features: no other values make it through a message. -/
theorem C87_announced_needed (cfg : Cfg) (s : Schema) (hz : s.sized = true) (x : s.Val)
    (hx : ¬ (s.eachPart Proper x ∧ s.eachPart (Announceable cfg) x)) :
    (s.codec cfg).toBytes x = none ∨
    ∀ (k : Backend) (v : Bytes) (vs : List Bytes) (st st' : k.State), k.Holds v vs st →
      (s.codec cfg).parse (k.ops cfg.prof) st ≠ .ok x st' := by
  by_cases hb : (s.codec cfg).toBytes x = none
  · exact .inl hb
  · exact .inr fun k v vs st st' hs he =>
      hx ⟨C87_decoded cfg s hz k v vs st st' hs x he, (C87_announced cfg s x).mp hb⟩

/-- C87 for recursive types. -/
theorem C87_recursive (cfg : Cfg) (d : Decls) (i : Nat) :
    ((∀ j, (d.body j).sized = true) → ∀ (k : Backend) (v : Bytes) (vs : List Bytes) (st st' : k.State), k.Holds v vs st →
      ∀ a, (d.codec cfg i).parse (k.ops cfg.prof) st = .ok a st' →
        ∃ n x, a = d.val n x ∧ (d.unfold n i).eachPart Proper x) ∧
    (cfg.encLenOverride = false → ∀ (n : Nat) (x : (d.unfold n i).Val),
      ((d.codec cfg i).toBytes (d.val n x) ≠ none ↔ (d.unfold n i).eachPart (Sayable cfg) x)) := by
  refine ⟨fun hz k v vs st st' hs a he => ?_, fun hcfg n x => ?_⟩
  · obtain ⟨n, x, rfl, hp⟩ := d.parse_inv he
    exact ⟨n, x, rfl, C87_decoded cfg _ (d.sized hz n i) k v vs st st' hs x hp⟩
  · exact C87_encodable cfg hcfg (d.unfold n i) x

/-! ### functions that skip checks -/

/-- C87: where the caller keeps their promise, the functions that skip a check do what those do that check. -/
theorem C87_unchecked (t : IntTy) (min max : Int) (fmin fmax : BitVec 64) :
    (∀ x : t.Val, min ≤ number t min x → number t min x ≤ max →
      RangedInt.fromUnderlying t min max x = some (RangedInt.fromUnderlyingUnchecked t x) ∧
      RangedInt.toUnderlying t min max x = some (RangedInt.toUnderlyingUnchecked t x)) ∧
    (∀ x, FloatLe fmin x → FloatLe x fmax →
      RangedFloat.fromF64 fmin fmax x = some (RangedFloat.fromF64Unchecked x)) ∧
    (FloatLe fmin fmax → RangedFloat.fromF64 fmin fmax fmin = some (RangedFloat.minConst fmin) ∧
      RangedFloat.fromF64 fmin fmax fmax = some (RangedFloat.maxConst fmax)) ∧
    ∀ (n : Nat) (s : List Char) (x : ByteArr n), x.1 = s.flatMap String.utf8EncodeChar →
      FixedString.tryFromArray x = some (FixedString.fromArrayUnchecked x) ∧ FixedString.asStrUnchecked x = .val s := by
  refine ⟨fun x h1 h2 => ((C31_underlying t min max x).1 ⟨h1, h2⟩).2, fun x h1 h2 =>
    ((C32_constructors fmin fmax x).1 ⟨h1, h2⟩).2.1, fun h => ?_, fun n s x hx => ?_⟩
  · have hr : ∀ x, (∃ a, floatValue x = some a) → FloatLe x x := fun x ⟨a, ha⟩ =>
      ⟨a, a, ha, ha, by cases a <;> simp [FloatValue.le]⟩
    have h1 := hr fmin (by obtain ⟨a, _, ha, _⟩ := h; exact ⟨a, ha⟩)
    have h2 := hr fmax (by obtain ⟨_, a, _, ha, _⟩ := h; exact ⟨a, ha⟩)
    exact ⟨((C32_constructors fmin fmax fmin).1 ⟨h1, h⟩).2.1, ((C32_constructors fmin fmax fmax).1 ⟨h, h2⟩).2.1⟩
  · have hv : fromUtf8Ok x.1 = true := ((C24_utf8 n x).1.mpr ⟨s, hx⟩ :)
    rw [← utf8_eq] at hx
    refine ⟨if_pos hv, (if_pos hv).trans ?_⟩
    rw [hx, lossy_utf8]

/-- C87: where the promise is broken, an integer cannot be encoded, a float can but is never accepted again, and a text is
undefined behaviour; the bytes of such a text are accepted by decoding nevertheless, so decoded texts must be checked first. -/
theorem C87_broken_promise (cfg : Cfg) (t : IntTy) (min max : Int) (fmin fmax : BitVec 64) :
    (∀ x : t.Val, ¬ (min ≤ number t min x ∧ number t min x ≤ max) →
      (Codec.rangedInt t min max).toBytes (RangedInt.fromUnderlyingUnchecked t x) = none) ∧
    (∀ x, ¬ (FloatLe fmin x ∧ FloatLe x fmax) → ∃ b,
      (Codec.rangedFloat fmin fmax).toBytes (RangedFloat.fromF64Unchecked x) = some b ∧
      ∀ rest, ∃ e, (Codec.rangedFloat fmin fmax).Rejects cfg (b ++ rest) e) ∧
    ∀ (n : Nat) (x : ByteArr n), ¬ ValidUtf8 x.1 →
      FixedString.asStrUnchecked (FixedString.fromArrayUnchecked x) = .ub ∧
      ∀ rest, (Codec.fixedString n).Decodes cfg (x.1 ++ rest) (FixedString.fromArrayUnchecked x) rest := by
  refine ⟨fun x hx => ?_, fun x hx => ?_, fun n x hx => ⟨?_, fun rest => (C24_decode cfg n x rest).2⟩⟩
  · rw [C31_encode]
    exact if_neg hx
  · obtain ⟨b, hb⟩ : ∃ b, Codec.f64.toBytes x = some b := ⟨_, Writes.toBytes f64_writes x⟩
    refine ⟨b, (C32_encode fmin fmax x).trans hb, fun rest => ?_⟩
    obtain ⟨e, he⟩ := C32_reject cfg fmin fmax x b rest (fun h => hx ⟨h.1, h.2.1⟩) hb
    exact ⟨_, he⟩
  · exact if_neg fun h => hx ((C24_utf8 n x).1.mp h)

/-- The hypotheses are met: a value with a proper and an improper number. -/
example : let s : Schema := .record (.cons (.rangedInt .u8 3 9) (.cons (.dynamic .u8 (.fixSeq 2 .bool)) .nil))
    s.sized = true ∧ s.tagsOk ∧ s.tail = some .any ∧
    s.eachPart Proper ((5 : BitVec 8), [true, false], ()) ∧ ¬ s.eachPart Proper ((7 : BitVec 8), [true, false], ()) ∧
    ¬ s.eachPart Proper ((5 : BitVec 8), [true], ()) := by
  refine ⟨rfl, by simp [Schema.tagsOk, Fields.tagsOk], by decide, ?_, ?_, ?_⟩
  · exact ⟨trivial, ⟨by decide, by decide⟩, ⟨trivial, (rfl : [true, false].length = 2), fun _ _ => trivial⟩, trivial⟩
  · exact fun h => absurd h.2.1.2 (by decide)
  · exact fun h => by have h' : [true].length = 2 := h.2.2.1.2.1; cases h'

end Verif.Props
