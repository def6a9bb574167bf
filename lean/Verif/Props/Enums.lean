import Verif.Enums
import Verif.Props.Prims
/-
C28 (`cstyle!`) and C29 (`data!`), over all declarations; payload codecs are arbitrary, of them only their behaviour
on the bytes in question is assumed.
-/
namespace Verif.Props

open Codec

variable {α β : Type} {c : Codec α} {cfg : Cfg}

theorem tagword_ok {w : TagWidth} {tags : List Nat} {t : Nat} (ht : t < 256 ^ w.len) (hm : t ∈ tags) (u : Bytes) :
    Dec.tag w tags (toBe w.len t ++ u) = .ok t u := by
  simp only [Dec.tag, D.bind_run, D.map_run]
  rw [D.take_append (toBe_length ..)]
  simp [ofBe_toBe, Nat.mod_eq_of_lt ht, hm]

theorem tagword_short {w : TagWidth} {tags : List Nat} {v : Bytes} (hv : v.length < w.len) :
    Dec.tag w tags v = .err (D.shortErr w.len v.length) := by
  have hw : w.len ≤ isizeMax + 1 := by cases w <;> decide
  simp [Dec.tag, D.take, D.short, Nat.not_le.mpr hv, hw]

/-- An undeclared tag is reported, with the declared ones, and nothing but the tag has been consumed. -/
theorem tagword_reject {w : TagWidth} {tags : List Nat} {t : Nat} (ht : t < 256 ^ w.len) (hm : t ∉ tags)
    (h0 : tags ≠ []) (u : Bytes) (k : Backend) (p : Profile) (vs : List Bytes) (s : k.State)
    (hs : k.Holds (toBe w.len t ++ u) vs s) :
    ∃ s', ParserOps.takeTagword w (w.parse (k.ops p)) tags s = .err (.token (.invalidTag w t (some tags))) s' ∧
      k.Holds u vs s' := by
  have h1 := Refines.map ofBe (Refines.consumeArr (pan' := False) (k.lawful p) w.len) _ vs s hs
  rw [D.map_run, D.take_append (toBe_length ..)] at h1
  simp only [DecRes.bind_ok, ofBe_toBe, Nat.mod_eq_of_lt ht] at h1
  obtain ⟨s', h1, h2⟩ := h1
  refine ⟨s', ?_, h2⟩
  have hc : tags.contains t = false := by simpa using hm
  cases tags with
  | nil => exact (h0 rfl).elim
  | cons a as =>
    have h1' : w.parse (k.ops p) s = .ok t s' := h1
    simp only [ParserOps.takeTagword, M.bind_run, h1', Out.bind_ok, hc]
    rfl

/-! ### C28 -/

/-- C28, encoding: the backer's encoding of the discriminant. -/
theorem C28_encode (w : TagWidth) (d : CDecl) (x : CEnum d.iterTags) :
    (cstyle w d.iterTags).toBytes x = some (toBe w.len (d.getTagval x)) := Writes.toBytes (cstyle_writes w _) x

/-- The bytes of a tag by its declared width. -/
def tagBytes : TagWidth → Nat
  | .u8 => 1
  | .u16 => 2
  | .u30 => 4

/-- C28, encoding: one, two or four bytes according to the width, the most significant byte first. -/
theorem C28_width (w : TagWidth) (d : CDecl) (x : CEnum d.iterTags) (hx : d.getTagval x < 256 ^ tagBytes w) :
    ∃ b, (cstyle w d.iterTags).toBytes x = some b ∧ b.length = tagBytes w ∧ beVal b = d.getTagval x := by
  have hw : tagBytes w = w.len := by cases w <;> rfl
  exact ⟨_, C28_encode w d x, by rw [toBe_length, hw], by rw [beVal_eq, ofBe_toBe_of_lt (hw ▸ hx)]⟩

/-- C28, decoding a declared tag. -/
theorem C28_decode (cfg : Cfg) (w : TagWidth) (d : CDecl) (t : Nat) (h : t ∈ d.iterTags) (ht : t < 256 ^ w.len)
    (rest : Bytes) : (cstyle w d.iterTags).Decodes cfg (toBe w.len t ++ rest) ⟨t, h⟩ rest := by
  refine Parses.decodes (cstyle_parses (win := False) w _) ?_
  simp [Dec.cstyle, D.bind_run, tagword_ok ht h, h]
  rfl

/-- C28, round trip. -/
theorem C28_roundtrip (cfg : Cfg) (w : TagWidth) (d : CDecl) (hd : ∀ t ∈ d.iterTags, t < 256 ^ w.len)
    (x : CEnum d.iterTags) (b rest : Bytes) (hb : (cstyle w d.iterTags).toBytes x = some b) :
    (cstyle w d.iterTags).Decodes cfg (b ++ rest) x rest := by
  rw [C28_encode] at hb
  cases hb
  exact C28_decode cfg w d x.1 x.2 (hd _ x.2) rest

/-- C28, an undeclared tag is refused with the tag and all valid ones, and only the tag has been consumed. -/
theorem C28_reject (p : Profile) (w : TagWidth) (d : CDecl) (hd : d ≠ []) (t : Nat) (ht : t < 256 ^ w.len)
    (h : t ∉ d.iterTags) (rest : Bytes) (k : Backend) (vs : List Bytes) (s : k.State)
    (hs : k.Holds (toBe w.len t ++ rest) vs s) :
    ∃ s', (cstyle w d.iterTags).parse (k.ops p) s = .err (.token (.invalidTag w t (some d.iterTags))) s' ∧
      k.Holds rest vs s' := by
  obtain ⟨s', h1, h2⟩ := tagword_reject (tags := d.iterTags) ht h (by simpa [CDecl.iterTags] using hd) rest k p vs s hs
  exact ⟨s', by simp [cstyle, M.bind_run, h1], h2⟩

/-- C28, an incomplete tag. -/
theorem C28_short (cfg : Cfg) (w : TagWidth) (d : CDecl) (v : Bytes) (hv : v.length < w.len) :
    (cstyle w d.iterTags).Rejects cfg v (D.shortErr w.len v.length) := by
  refine Parses.rejects (cstyle_parses (win := False) w _) (.inl id) ?_
  simp [Dec.cstyle, D.bind_run, tagword_short hv]

/-- C28, every input of sufficient length begins with exactly one tag. -/
theorem C28_cases (w : TagWidth) (v : Bytes) (hv : w.len ≤ v.length) :
    ∃ t rest, t < 256 ^ w.len ∧ v = toBe w.len t ++ rest := by
  refine ⟨ofBe (v.take w.len), v.drop w.len, ?_, ?_⟩
  · have := ofBe_lt (v.take w.len)
    rwa [List.length_take, Nat.min_eq_left hv] at this
  · have := toBe_ofBe (v.take w.len)
    rw [List.length_take, Nat.min_eq_left hv] at this
    rw [this, List.take_append_drop]

/-- C28, exactly the declared discriminants decode: a successful decoding has read a declared tag and nothing else. -/
theorem C28_exact (p : Profile) (w : TagWidth) (d : CDecl) (k : Backend) (v : Bytes) (vs : List Bytes) (s s' : k.State)
    (x : CEnum d.iterTags) (hs : k.Holds v vs s) (h : (cstyle w d.iterTags).parse (k.ops p) s = .ok x s') :
    ∃ rest, v = toBe w.len (d.getTagval x) ++ rest ∧ k.Holds rest vs s' := by
  let cfg : Cfg := { prof := p, encLenOverride := false, checkPadding := false, completeParse := false }
  by_cases hv : w.len ≤ v.length
  · obtain ⟨t, rest, ht, rfl⟩ := C28_cases w v hv
    by_cases hm : t ∈ d.iterTags
    · obtain ⟨s2, h2, r2⟩ := C28_decode cfg w d t hm ht rest k vs s hs
      have h2' : (cstyle w d.iterTags).parse (k.ops p) s = .ok ⟨t, hm⟩ s2 := h2
      rw [h] at h2'
      cases h2'
      exact ⟨rest, rfl, r2⟩
    · by_cases hd : d = []
      · subst hd; exact absurd x.2 (by simp [CDecl.iterTags])
      · obtain ⟨s2, h2, _⟩ := C28_reject p w d hd t ht hm rest k vs s hs
        rw [h] at h2
        cases h2
  · obtain ⟨_, _, h2, _⟩ := C28_short cfg w d v (Nat.not_le.mp hv) k vs s hs
    have h2' : (cstyle w d.iterTags).parse (k.ops p) s = .err _ _ := h2
    rw [h] at h2'
    cases h2'

theorem isValidTag_iff (d : CDecl) (t : Nat) : d.isValidTag t = true ↔ t ∈ d.iterTags := by
  induction d with
  | nil => simp [CDecl.isValidTag, CDecl.iterTags]
  | cons x d ih =>
    have ih' : CDecl.isValidTag d t = true ↔ t ∈ d.map (·.2) := ih
    simp only [CDecl.isValidTag, CDecl.iterTags, List.map_cons, List.mem_cons]
    by_cases h : t = x.2
    · simp [h]
    · rw [if_neg h, ih']; simp [h]

theorem getName_iff (d : CDecl) (hd : d.iterTags.Nodup) (t : Nat) (n : String) :
    d.getName t = some n ↔ (n, t) ∈ d := by
  induction d with
  | nil => simp [CDecl.getName]
  | cons x d ih =>
    obtain ⟨m, u⟩ := x
    have hd' : u ∉ CDecl.iterTags d ∧ (CDecl.iterTags d).Nodup := by simpa [CDecl.iterTags] using hd
    simp only [CDecl.getName, List.mem_cons, Prod.mk.injEq]
    by_cases h : t = u
    · subst h
      simp only [if_true, Option.some.injEq]
      refine ⟨fun h => .inl ⟨h.symm, trivial⟩, fun h => h.elim (fun h => h.1.symm) fun h => ?_⟩
      exact absurd (List.mem_map.mpr ⟨_, h, rfl⟩) hd'.1
    · rw [if_neg h, ih hd'.2]
      simp [h]

/-- C28, the other functions of the enum agree with the codec: a tag is valid iff it decodes, its name is the declared
one, and `TryFrom` accepts exactly the declared tags, inverting `get_tagval`. -/
theorem C28_api (d : CDecl) (hd : d.iterTags.Nodup) :
    (∀ t, d.isValidTag t = true ↔ t ∈ d.iterTags) ∧
    (∀ t n, d.getName t = some n ↔ (n, t) ∈ d) ∧
    (∀ x, d.tryFrom (d.getTagval x) = .ok x) ∧
    (∀ t x, d.tryFrom t = .ok x → d.getTagval x = t) ∧
    (∀ t, t ∉ d.iterTags → d.tryFrom t = .error (t, some d.iterTags)) := by
  refine ⟨isValidTag_iff d, getName_iff d hd, fun x => ?_, fun t x h => ?_, fun t h => ?_⟩
  · have : d.getTagval x ∈ d.iterTags := x.2
    simp only [CDecl.tryFrom, dif_pos this]
    rfl
  · simp only [CDecl.tryFrom] at h
    split at h
    · cases h; rfl
    · cases h
  · simp only [CDecl.tryFrom, dif_neg h]

/-- Doc example of src/adt.rs:31. -/
def smallPrime : CDecl := [("Two", 2), ("Three", 3), ("Five", 5), ("Seven", 7)]

example (cfg : Cfg) : (cstyle .u8 smallPrime.iterTags).Decodes cfg [5, 9] ⟨5, by decide⟩ [9] :=
  C28_decode cfg .u8 smallPrime 5 (by decide) (by decide) [9]
example (p : Profile) (k : Backend) : ∃ s', (cstyle .u8 smallPrime.iterTags).parse (k.ops p) (k.init [4, 9]) =
    .err (.token (.invalidTag .u8 4 (some [2, 3, 5, 7]))) s' ∧ k.Holds [9] [] s' :=
  C28_reject p .u8 smallPrime (by decide) 4 (by decide) (by decide) [9] k [] _ (k.holds_init (v := [4, 9]) (by decide))
example : smallPrime.getName 5 = some "Five" ∧ smallPrime.iterTags.Nodup := by decide

/-! ### C29 -/

/-- In a declaration, `t` is the tag, `c` the payload codec and `mk` the constructor of one of the variants. -/
inductive Variant {α : Type} : {β : Type} → Arms β → Nat → Codec α → (α → β) → Prop where
  | head {β : Type} (t : Nat) (c : Codec α) (as : Arms β) : Variant (.cons t c as) t c Sum.inl
  | tail {γ β : Type} {as : Arms β} {t : Nat} {c : Codec α} {mk : α → β} (t' : Nat) (c' : Codec γ)
      (h : Variant as t c mk) : Variant (.cons t' c' as) t c (fun x => Sum.inr (mk x))

theorem Variant.mem {as : Arms β} {t : Nat} {mk : α → β} (h : Variant as t c mk) : t ∈ as.tags := by
  induction h with
  | head => exact List.mem_cons_self ..
  | tail _ _ _ ih => exact List.mem_cons_of_mem _ ih

/-- C29, every value belongs to a variant. -/
theorem C29_variants : ∀ {β : Type} (as : Arms β) (y : β),
    ∃ (α : Type) (t : Nat) (c : Codec α) (mk : α → β) (x : α), Variant as t c mk ∧ y = mk x
  | _, .nil, y => nomatch y
  | _, .cons t c as, .inl x => ⟨_, t, c, Sum.inl, x, .head t c as, rfl⟩
  | _, .cons t' c' as, .inr y => by
    obtain ⟨α, t, c, mk, x, h, rfl⟩ := C29_variants as y
    exact ⟨α, t, c, fun x => .inr (mk x), x, .tail t' c' h, rfl⟩

theorem variant_write {as : Arms β} {t : Nat} {mk : α → β} (h : Variant as t c mk) (w : TagWidth) {τ : Type}
    (T : TargetOps τ) (x : α) :
    as.codec.write w T (mk x) = W.add (w.write T t) (W.add (c.write T x) (W.resolveZero T)) := by
  induction h with
  | head => rfl
  | tail _ _ _ ih => exact ih

/-- C29, encoding: the tag, then the payload. -/
theorem C29_encode (w : TagWidth) {as : Arms β} {t : Nat} {mk : α → β} (h : Variant as t c mk) (hc : c.Appending)
    (x : α) : (data w as.codec).toBytes (mk x) = (c.toBytes x).map (toBe w.len t ++ ·) := by
  have h1 : (data w as.codec).writeToVec (mk x) [] =
      ((c.toBytes x).map (toBe w.len t ++ ·)).map ([] ++ ·) := by
    have := ((TagWidth.write_appends vecLawful w t).add ((hc vecLawful x).addResolve vecLawful)) [] [] rfl
    unfold Codec.writeToVec
    simp only [data, variant_write h]
    cases hb : c.toBytes x with
    | none =>
      rw [hb] at this
      have h2 : W.add (w.write vecTarget t) (W.add (c.write vecTarget x) (W.resolveZero vecTarget)) [] = none := this
      simp [h2]
    | some b =>
      rw [hb] at this
      obtain ⟨t', h1, rfl⟩ := this
      simp [h1]
  rw [Codec.toBytes, h1]
  cases c.toBytes x <;> rfl

/-- C29, encoding: the tag takes one, two or four bytes according to its width, the most significant byte first. -/
theorem C29_width (w : TagWidth) {as : Arms β} {t : Nat} {mk : α → β} (h : Variant as t c mk) (hc : c.Appending)
    (ht : t < 256 ^ tagBytes w) (x : α) (b : Bytes) (hb : (data w as.codec).toBytes (mk x) = some b) :
    ∃ p q, b = p ++ q ∧ p.length = tagBytes w ∧ beVal p = t ∧ c.toBytes x = some q := by
  have hw : tagBytes w = w.len := by cases w <;> rfl
  rw [C29_encode w h hc] at hb
  obtain ⟨q, hq, rfl⟩ := Option.map_eq_some_iff.mp hb
  exact ⟨_, q, rfl, by rw [toBe_length, hw], by rw [beVal_eq, ofBe_toBe_of_lt (hw ▸ ht)], hq⟩

/-- C29, `get_tagval`. -/
theorem C29_tagval {as : Arms β} {t : Nat} {mk : α → β} (h : Variant as t c mk) (x : α) :
    as.codec.tagval (mk x) = t := by
  induction h with
  | head => rfl
  | tail _ _ _ ih => exact ih

theorem variant_parse {as : Arms β} {t : Nat} {mk : α → β} (h : Variant as t c mk) (hd : as.tags.Nodup) {σ : Type}
    (P : ParserOps σ) : as.codec.parse P t = mk <$> c.parse P := by
  induction h with
  | head t c as =>
    funext s
    simp only [Arms.codec, VCodec.cons, if_true]
    rfl
  | @tail γ β as t c mk t' c' h ih =>
    have hd' : t' ∉ as.tags ∧ as.tags.Nodup := by simpa [Arms.tags] using hd
    have hne : t ≠ t' := fun he => hd'.1 (he ▸ h.mem)
    funext s
    simp only [Arms.codec, VCodec.cons, if_neg hne, ih hd'.2, M.bind_run]
    show Out.bind (Out.bind _ _) _ = Out.bind _ _
    cases c.parse P s <;> rfl

theorem variant_refines {as : Arms β} {t : Nat} {mk : α → β} (h : Variant as t c mk) (hd : as.tags.Nodup)
    {d : D α} {k : Backend} {pan' : Prop} (p : Profile) (w : TagWidth) (ht : t < 256 ^ w.len)
    (hr : Refines pan' k.Holds (c.parse (k.ops p)) d) (u : Bytes) (vs : List Bytes) (s : k.State)
    (hs : k.Holds (toBe w.len t ++ u) vs s) :
    Meets pan' k.Holds vs ((data w as.codec).parse (k.ops p) s) ((mk <$> d) u) := by
  have h1 := Refines.tag (pan' := False) (k.lawful p) w as.codec.tags _ vs s hs
  rw [as.codec_tags, tagword_ok ht h.mem] at h1
  obtain ⟨s1, h1, r1⟩ := h1
  have h2 := Refines.map mk hr u vs s1 r1
  rw [← variant_parse h hd] at h2
  simpa only [data, M.bind_run, as.codec_tags, h1, Out.bind_ok] using h2

/-- C29, decoding: behind a tag its variant's payload codec decides. -/
theorem C29_decode (w : TagWidth) {as : Arms β} (hd : as.tags.Nodup) {t : Nat} {mk : α → β} (h : Variant as t c mk)
    (ht : t < 256 ^ w.len) {u rest : Bytes} {a : α} (hc : c.Decodes cfg u a rest) :
    (data w as.codec).Decodes cfg (toBe w.len t ++ u) (mk a) rest := fun k vs s hs => by
  have := variant_refines h hd cfg.prof w ht (Decodes.on (win := False) hc k) u vs s hs
  simp only [D.map_run, spot_self, DecRes.bind_ok] at this
  exact this

/-- C29, a payload that fails to decode. -/
theorem C29_payload_error (w : TagWidth) {as : Arms β} (hd : as.tags.Nodup) {t : Nat} {mk : α → β}
    (h : Variant as t c mk) (ht : t < 256 ^ w.len) {u : Bytes} {e : ParseError} (hc : c.Rejects cfg u e) :
    (data w as.codec).Rejects cfg (toBe w.len t ++ u) e := fun k vs s hs => by
  have := variant_refines h hd cfg.prof w ht (Rejects.on (win := False) hc k) u vs s hs
  simp only [D.map_run, spot_self, DecRes.bind_err] at this
  rcases this with h | ⟨⟨h, _⟩, _⟩
  · exact h
  · exact h.elim

/-- C29, round trip: in front of the same bytes `r` as the payload. -/
theorem C29_roundtrip (w : TagWidth) {as : Arms β} (hd : as.tags.Nodup) {t : Nat} {mk : α → β}
    (h : Variant as t c mk) (ht : t < 256 ^ w.len) (hc : c.Appending) {x : α} {b r : Bytes}
    (hx : ∀ b, c.toBytes x = some b → c.Decodes cfg (b ++ r) x r)
    (hb : (data w as.codec).toBytes (mk x) = some b) : (data w as.codec).Decodes cfg (b ++ r) (mk x) r := by
  rw [C29_encode w h hc] at hb
  cases hp : c.toBytes x with
  | none => rw [hp] at hb; cases hb
  | some q =>
    rw [hp] at hb
    cases hb
    rw [List.append_assoc]
    exact C29_decode w hd h ht (hx q hp)

/-- C29, an undeclared tag is refused, and only the tag has been consumed. -/
theorem C29_reject (p : Profile) (w : TagWidth) (as : Arms β) (h0 : as.tags ≠ []) (t : Nat) (ht : t < 256 ^ w.len)
    (h : t ∉ as.tags) (rest : Bytes) (k : Backend) (vs : List Bytes) (s : k.State)
    (hs : k.Holds (toBe w.len t ++ rest) vs s) :
    ∃ s', (data w as.codec).parse (k.ops p) s = .err (.token (.invalidTag w t (some as.tags))) s' ∧
      k.Holds rest vs s' := by
  obtain ⟨s', h1, h2⟩ := tagword_reject ht h h0 rest k p vs s hs
  exact ⟨s', by simp [data, M.bind_run, as.codec_tags, h1], h2⟩

/-- C29, an incomplete tag. -/
theorem C29_short (cfg : Cfg) (w : TagWidth) (as : Arms β) (v : Bytes) (hv : v.length < w.len) :
    (data w as.codec).Rejects cfg v (D.shortErr w.len v.length) := fun k vs s hs => by
  have h1 := Refines.tag (pan' := False) (k.lawful cfg.prof) w as.codec.tags _ vs s hs
  rw [tagword_short hv] at h1
  rcases h1 with ⟨e', s', h1, h2⟩ | ⟨h, _⟩
  · exact ⟨e', s', by simp [data, M.bind_run, h1], h2⟩
  · exact h.elim

/-- C29, distinct tags are needed (the compiler accepts repeated ones, with a warning): the second of two variants
sharing a tag encodes but decodes as the first. -/
theorem C29_repeated (cfg : Cfg) (x : BitVec 8) :
    let as : Arms _ := .cons 1 (Codec.int .u8) (.cons 1 (Codec.int .u8) .nil)
    ∃ b, (data .u8 as.codec).toBytes (.inr (.inl x)) = some b ∧ (data .u8 as.codec).Decodes cfg b (.inl x) [] := by
  intro as
  have hv : Variant as 1 (Codec.int .u8) (fun x => Sum.inr (Sum.inl x)) := .tail 1 _ (.head 1 _ .nil)
  refine ⟨_, C29_encode .u8 hv (Writes.appending (int_writes .u8)) x, fun k vs s hs => ?_⟩
  have hd := C10_int_roundtrip cfg .u8 x _ [] (Writes.toBytes (int_writes .u8) x)
  rw [List.append_nil] at hd
  have h1 := Refines.tag (pan' := False) (k.lawful cfg.prof) .u8 as.codec.tags _ vs s hs
  rw [as.codec_tags, tagword_ok (t := 1) (by decide) (by decide)] at h1
  obtain ⟨s1, h1, r1⟩ := h1
  obtain ⟨s2, h2, r2⟩ := hd k vs s1 r1
  refine ⟨s2, ?_, r2⟩
  simp only [data, M.bind_run, as.codec_tags, h1, Out.bind_ok]
  simp [as, Arms.codec, VCodec.cons, M.bind_run, h2]
  rfl

/-- Doc example of src/adt.rs:238. -/
def smallPrimePower : Arms (BitVec 8 ⊕ BitVec 8 ⊕ BitVec 8 ⊕ Empty) :=
  .cons 2 (Codec.int .u8) (.cons 3 (Codec.int .u8) (.cons 5 (Codec.int .u8) .nil))

theorem smallPrimePower_five : Variant smallPrimePower 5 (Codec.int .u8) (fun x => .inr (.inr (.inl x))) :=
  .tail 2 _ (.tail 3 _ (.head 5 _ .nil))

example (cfg : Cfg) : (data .u8 smallPrimePower.codec).Decodes cfg [5, 1, 9] (.inr (.inr (.inl 1))) [9] :=
  C29_decode .u8 (by decide) smallPrimePower_five (by decide) (u := [1, 9])
    (C10_int_roundtrip cfg .u8 1 [1] [9] (by decide))
example : (data .u8 smallPrimePower.codec).toBytes (.inr (.inr (.inl 1))) = some [5, 1] :=
  C29_encode .u8 smallPrimePower_five (Writes.appending (int_writes .u8)) 1

end Verif.Props
