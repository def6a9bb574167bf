import Verif.Props.Sequences
import Verif.Props.Dynamic
/-
C69: sequences whose length violates their bound.  The documentation says that encoding refuses them
(src/seq/fix.rs:62-69 for `FixSeq` holding fewer elements than `N`; src/seq/lim.rs:80-88 for `LimSeq` holding more, made by
`from_vec_unchecked`).  It does not; but nobody who decodes the result takes it for a valid one.
-/
namespace Verif.Props

open Codec

variable {α : Type} {c : Codec α} {cfg : Cfg}

/-- Elements that are read back from their encodings, which are not empty. -/
def Readable (c : Codec α) (cfg : Cfg) (xs : List α) : Prop :=
  ∀ x ∈ xs, ∀ b t, c.toBytes x = some b → b ≠ [] ∧ c.Decodes cfg (b ++ t) x t

/-- C69, what the documentation promises for `FixSeq<T, N>`, is false: every sequence of encodable elements encodes, and
if it is not saturated the result is refused by the decoder. -/
theorem C69_fix_unsaturated (hc : c.Appending) {n : Nat} {xs : List α} (hr : Readable c cfg xs) (hn : xs.length < n)
    (he : ∀ x ∈ xs, (c.toBytes x).isSome) :
    ∃ b, (fixSeq n c).toBytes xs = some b ∧
      (fixSeq n c).Rejects cfg b (.external (.lengthViolation (.wrongLength n xs.length))) := by
  obtain ⟨b, hb⟩ : ∃ b, concatBytes c xs = some b := by
    clear hr hn
    induction xs with
    | nil => exact ⟨[], rfl⟩
    | cons x xs ih =>
      obtain ⟨q, hq⟩ := ih fun y hy => he y (List.mem_cons_of_mem _ hy)
      obtain ⟨p, hp⟩ := Option.isSome_iff_exists.mp (he x (List.mem_cons_self ..))
      exact ⟨p ++ q, by rw [concatBytes_cons, hp, hq]; rfl⟩
  refine ⟨b, (C26_encode hc n xs).trans hb, ?_⟩
  have h := chunks_concat (cfg := cfg) [] hr hb
  rw [List.append_nil] at h
  exact C26_short h hn

/-- C69, likewise for `LimSeq<T, N>` holding more than `N` elements. -/
theorem C69_lim_oversaturated (hc : c.Appending) {n : Nat} {xs : List α} (hr : Readable c cfg xs) (hn : n < xs.length)
    (he : ∀ x ∈ xs, (c.toBytes x).isSome) :
    ∃ b, (limSeq n c).toBytes xs = some b ∧
      (limSeq n c).Rejects cfg b (.external (.lengthViolation (.tooLong n (n + 1)))) := by
  obtain ⟨b, hb⟩ : ∃ b, concatBytes c xs = some b := by
    clear hr hn
    induction xs with
    | nil => exact ⟨[], rfl⟩
    | cons x xs ih =>
      obtain ⟨q, hq⟩ := ih fun y hy => he y (List.mem_cons_of_mem _ hy)
      obtain ⟨p, hp⟩ := Option.isSome_iff_exists.mp (he x (List.mem_cons_self ..))
      exact ⟨p ++ q, by rw [concatBytes_cons, hp, hq]; rfl⟩
  refine ⟨b, (C27_encode hc n xs).trans hb, ?_⟩
  have h := chunks_concat (cfg := cfg) [] hr hb
  rw [List.append_nil] at h
  exact C27_too_many h hn

/-- C69, the part that holds: what an encoded sequence decodes to, everything being read, is that sequence, and it has the
length it must have.  (Missing: encoding the others does not fail, see `C69_fails`.) -/
theorem C69_accepted_partial (hc : c.Appending) {n : Nat} {xs ys : List α} {b : Bytes} (hr : Readable c cfg xs)
    (hlen : b.length ≤ isizeMax) :
    ((fixSeq n c).toBytes xs = some b → (fixSeq n c).Decodes cfg b ys [] → ys = xs ∧ xs.length = n) ∧
    ((limSeq n c).toBytes xs = some b → (limSeq n c).Decodes cfg b ys [] → ys = xs ∧ xs.length ≤ n) := by
  have uniq : ∀ {d : Codec (List α)} {w : Bytes} {x : List α}, d.Decodes cfg b x w → d.Decodes cfg b ys [] → ys = x ∧ w = [] := by
    intro d w x h h'
    obtain ⟨s, e, hs⟩ := h .byte [] _ (Backend.holds_init .byte hlen)
    obtain ⟨s', e', hs'⟩ := h' .byte [] _ (Backend.holds_init .byte hlen)
    rw [e] at e'
    obtain ⟨rfl, rfl⟩ := Out.ok.inj e'
    exact ⟨rfl, Backend.holds_unique .byte hs hs'⟩
  have clash : ∀ {d : Codec (List α)} {e : ParseError}, d.Rejects cfg b e → d.Decodes cfg b ys [] → False := by
    intro d e h h'
    obtain ⟨e', s, he, -⟩ := h .byte [] _ (Backend.holds_init .byte hlen)
    obtain ⟨s', hd, -⟩ := h' .byte [] _ (Backend.holds_init .byte hlen)
    rw [he] at hd
    cases hd
  refine ⟨fun hb hd => ?_, fun hb hd => ?_⟩
  · rw [C26_encode hc] at hb
    have h := chunks_concat (cfg := cfg) [] hr hb
    rw [List.append_nil] at h
    rcases Nat.lt_trichotomy xs.length n with hn | hn | hn
    · exact (clash (C26_short h hn) hd).elim
    · exact ⟨(uniq (C26_decode h hn) hd).1, hn⟩
    · rw [← List.take_append_drop n xs] at h
      obtain ⟨r, hA, hB⟩ := Chunks.split h
      have hl : (xs.take n).length = n := by rw [List.length_take]; omega
      have := (uniq (C26_decode hA hl) hd).2
      subst this
      cases hx : xs.drop n with
      | nil =>
        have := congrArg List.length hx
        rw [List.length_drop, List.length_nil] at this
        omega
      | cons a as =>
        rw [hx] at hB
        cases hB with
        | cons hv _ _ => exact absurd rfl hv
  · rw [C27_encode hc] at hb
    have h := chunks_concat (cfg := cfg) [] hr hb
    rw [List.append_nil] at h
    rcases Nat.lt_or_ge n xs.length with hn | hn
    · exact (clash (C27_too_many h hn) hd).elim
    · exact ⟨(uniq (C27_decode h hn) hd).1, hn⟩

/-- The elements of the examples. -/
theorem readable_u8 (cfg : Cfg) (xs : List (BitVec 8)) : Readable (Codec.int .u8) cfg xs := fun x _ b t h =>
  ⟨int_nonempty .u8 x b h, C10_int_roundtrip cfg .u8 x b t h⟩

/-- C69 fails: `FixSeq::<u8, 3>::try_from(vec![7])` yields a value; it encodes, and what it encodes to cannot be decoded.
Likewise with two bytes in a `LimSeq<u8, 1>`, which only `from_vec_unchecked` can make. -/
theorem C69_fails (cfg : Cfg) :
    BoundedSeq.fixTryFromVec 3 [7#8] = .ok [7#8] ∧ (fixSeq 3 (Codec.int .u8)).toBytes [7#8] = some [7] ∧
      (fixSeq 3 (Codec.int .u8)).Rejects cfg [7] (.external (.lengthViolation (.wrongLength 3 1))) ∧
    (limSeq 1 (Codec.int .u8)).toBytes [7#8, 8#8] = some [7, 8] ∧
      (limSeq 1 (Codec.int .u8)).Rejects cfg [7, 8] (.external (.lengthViolation (.tooLong 1 2))) := by
  refine ⟨rfl, rfl, ?_, rfl, ?_⟩
  · obtain ⟨b, hb, h⟩ := C69_fix_unsaturated (cfg := cfg) (Writes.appending (int_writes .u8)) (n := 3) (readable_u8 cfg [7#8])
      (by decide) (fun _ _ => by rw [Writes.toBytes (int_writes .u8)]; rfl)
    cases hb
    exact h
  · obtain ⟨b, hb, h⟩ := C69_lim_oversaturated (cfg := cfg) (Writes.appending (int_writes .u8)) (n := 1)
      (readable_u8 cfg [7#8, 8#8]) (by decide) (fun _ _ => by rw [Writes.toBytes (int_writes .u8)]; rfl)
    cases hb
    exact h

/-- C69, the estimate of a `FixSeq` of elements of known size is that of a saturated one.  Where estimates stand in for lengths
(`enc_len_estimable_override`), the length prefix of an unsaturated one announces bytes that do not come. -/
theorem C69_estimate (hc : c.Appending) {m n : Nat} (hk : c.known = some m) (hm : ∀ x b, c.toBytes x = some b → b.length = m)
    {xs : List α} {b : Bytes} (hb : (fixSeq n c).toBytes xs = some b) :
    (fixSeq n c).estimate xs = n * m ∧ b.length = xs.length * m ∧
      ((fixSeq n c).estimate xs = b.length ↔ xs.length = n ∨ m = 0) := by
  have hl : b.length = xs.length * m := by
    rw [C26_encode hc] at hb
    clear hk
    induction xs generalizing b with
    | nil => cases hb; simp
    | cons x xs ih =>
      rw [concatBytes_cons] at hb
      cases hx : c.toBytes x with
      | none => rw [hx] at hb; cases hb
      | some p =>
        cases hr : concatBytes c xs with
        | none => rw [hx, hr] at hb; cases hb
        | some q =>
          rw [hx, hr] at hb
          cases hb
          rw [List.length_append, hm x p hx, ih hr, List.length_cons, Nat.succ_mul, Nat.add_comm]
  have he : (fixSeq n c).estimate xs = n * m := by simp only [Codec.estimate, fixSeq, hk, Option.getD_some]
  refine ⟨he, hl, ?_⟩
  rw [he, hl]
  constructor
  · intro h
    rcases Nat.eq_zero_or_pos m with h0 | h0
    · exact .inr h0
    · exact .inl (Nat.eq_of_mul_eq_mul_right h0 h).symm
  · rintro (h | h)
    · rw [h]
    · rw [h]; simp

theorem C69_prefix_fails (p : Profile) (a b : Bool) :
    (dynamic ⟨p, true, a, b⟩ .u8 (fixSeq 3 (Codec.int .u8))).toBytes [7#8] = some [3, 7] := by
  cases p <;> cases a <;> cases b <;> rfl

/-- The hypotheses are met. -/
example (cfg : Cfg) : ∃ b, (fixSeq 3 (Codec.int .u16)).toBytes [1#16, 2#16] = some b ∧
    (fixSeq 3 (Codec.int .u16)).Rejects cfg b (.external (.lengthViolation (.wrongLength 3 2))) :=
  C69_fix_unsaturated (Writes.appending (int_writes .u16))
    (fun x _ b t h => ⟨int_nonempty .u16 x b h, C10_int_roundtrip cfg .u16 x b t h⟩) (by decide)
    (fun _ _ => by rw [Writes.toBytes (int_writes .u16)]; rfl)
example (cfg : Cfg) : (fixSeq 2 (Codec.int .u8)).toBytes [7#8, 8#8] = some [7, 8] ∧
    (fixSeq 2 (Codec.int .u8)).Decodes cfg [7, 8] [7#8, 8#8] [] ∧ (fixSeq 2 (Codec.int .u8)).estimate [7#8, 8#8] = 2 :=
  ⟨rfl, C26_roundtrip (b := [7, 8]) (Writes.appending (int_writes .u8)) [] rfl (readable_u8 cfg _) rfl, rfl⟩

end Verif.Props
