import Verif.RecUsize
import Verif.Lemmas.Recursive
import Verif.Lemmas.Unfold
import Verif.Props.Recursive
import Verif.Refine.Backend
/-
C89: counts of bytes.  In the other files counts are unbounded; the code adds them up in `usize`.  `Schema.machine` has the
counts as the code has them.  It is shown that this makes no difference unless more than `usizeMod - 1` bytes are counted, and
what happens then.
-/
namespace Verif.Props
open Usize Codec

variable {τ : Type}

/-- What the code that relies on estimates needs: `bits() as usize` loses nothing for the numbers inside the value. -/
def Counted (cfg : Cfg) (s : Schema) (x : s.Val) : Prop :=
  cfg.encLenOverride = false ∨ ¬ s.someNumber (fun n => usizeMod ≤ bits n) x

/-- C89, debug builds: `write_to` does exactly what it does with unbounded counts, save that it panics if the number of bytes
is not a `usize`.  In particular it never returns a wrong number. -/
theorem C89_debug (cfg : Cfg) (h : cfg.prof = .debug) (s : Schema) (x : s.Val) (hc : Counted cfg s x) (T : TargetOps τ) (t : τ) :
    (s.machine cfg).write T x t = match (s.codec cfg).write T x t with
      | some (n, t') => if n < usizeMod then some (n, t') else none
      | none => none := by
  rw [s.exact cfg x hc (.inl h) T t, h]
  cases (s.codec cfg).write T x t with
  | none => rfl
  | some q => rfl

/-- C89, release builds: if no `Dynamic` inside the value has contents of `usizeMod` bytes or more, then `write_to` does exactly
what it does with unbounded counts, save that the number it returns is reduced modulo `usizeMod`. -/
theorem C89_release (cfg : Cfg) (h : cfg.prof = .release) (s : Schema) (x : s.Val) (hc : Counted cfg s x)
    (hx : ¬ s.someDynamic (fun t y => ∃ l, (t.codec cfg).encLen cfg y = some l ∧ usizeMod ≤ l) x) (T : TargetOps τ) (t : τ) :
    (s.machine cfg).write T x t = match (s.codec cfg).write T x t with
      | some (n, t') => some (n % usizeMod, t')
      | none => none := by
  rw [s.exact cfg x hc (.inr hx) T t, h]
  cases (s.codec cfg).write T x t with
  | none => rfl
  | some q => rfl

theorem not_huge {cfg : Cfg} {s : Schema} {x : s.Val} {b : Bytes} (h : (s.codec cfg).toBytes x = some b) :
    ¬ s.someDynamic (Huge cfg) x := by
  refine s.out_dynamic (cfg := cfg) ?_ x ⟨b, ?_⟩
  · have key : ∀ (S : LenPref) (t : Schema) (y : t.Val) (c : Bytes) (l : Nat), (t.codec cfg).encLen cfg y = some l →
        usizeMod ≤ l → Enc.dynamic S (Enc.lenOf cfg (t.codec cfg).estimate (t.out cfg)) (t.out cfg) y ≠ some c := by
      intro S t y c l hl hu hc
      rw [Codec.encLen_eq (t.writes_out cfg)] at hl
      have := maxLen_lt S
      simp only [Enc.dynamic, hl] at hc
      rw [if_neg (by omega)] at hc
      cases hc
    exact fun S t y c hc ⟨l, hl, hu⟩ => key S t y c l hl hu hc
  · rw [← Writes.toBytes (s.writes_out cfg)]; exact h

/-- C89, both builds: for every value that has an encoding at all, `write_to` returns the number of bytes and has the effect
that it has with unbounded counts, if that number is a `usize`. -/
theorem C89_write (cfg : Cfg) (s : Schema) (x : s.Val) (hc : Counted cfg s x) {b : Bytes} (h : (s.codec cfg).toBytes x = some b) (T : TargetOps τ)
    {t t' : τ} {n : Nat} (hw : (s.codec cfg).write T x t = some (n, t')) (hn : n < usizeMod) :
    (s.machine cfg).write T x t = some (n, t') := by
  cases hp : cfg.prof with
  | debug => rw [C89_debug cfg hp s x hc, hw]; simp [hn]
  | release => rw [C89_release cfg hp s x hc (not_huge h), hw]; simp [Nat.mod_eq_of_lt hn]

/-- C89, both builds: whatever fits into memory is encoded as it is with unbounded counts, and measured likewise. -/
theorem C89_to_bytes (cfg : Cfg) (s : Schema) (x : s.Val) (hc : Counted cfg s x) {b : Bytes} (h : (s.codec cfg).toBytes x = some b)
    (hb : b.length < usizeMod) :
    (s.machine cfg).toBytes x = some b ∧
    (∀ n, (s.codec cfg).encLen cfg x = some n → n < usizeMod → (s.machine cfg).encLen cfg x = some n) := by
  have ho : s.out cfg x = some b := by rw [← Writes.toBytes (s.writes_out cfg)]; exact h
  refine ⟨?_, fun n hn hl => (encLen_near (s.agrees cfg) hc (s.exact cfg x hc (.inr (not_huge h)) sinkTarget)).2.1 n hn hl⟩
  have hw : (s.codec cfg).Writes (s.out cfg) := s.writes_out cfg
  have ha := hw vecLawful x [] [] rfl
  rw [ho] at ha
  obtain ⟨t', h1, h2⟩ := ha
  have := C89_write cfg s x hc h vecTarget h1 hb
  simp only [Machine.toBytes, this]
  rw [Codec.toBytes, Codec.writeToVec, h1] at h
  exact h

/-- C89: estimates are right if they are a `usize`; otherwise a debug build panics or is right, and a release build is right
modulo `usizeMod`. -/
theorem C89_estimate (cfg : Cfg) (s : Schema) (x : s.Val) (hc : ¬ s.someNumber (fun n => usizeMod ≤ bits n) x) :
    ((s.codec cfg).estimate x < usizeMod → (s.machine cfg).estimate x = some ((s.codec cfg).estimate x)) ∧
    (cfg.prof = .debug → ∀ n, (s.machine cfg).estimate x = some n → n = (s.codec cfg).estimate x) ∧
    (cfg.prof = .release → ∃ n, (s.machine cfg).estimate x = some n ∧ n % usizeMod = (s.codec cfg).estimate x % usizeMod) := by
  have h := (s.agrees cfg).estimate x hc
  refine ⟨h.fits, fun hp n hn => ?_, h.release⟩
  rcases h.debug hp with e | e <;> rw [e] at hn
  · cases hn
  · exact (Option.some.inj hn).symm

/-! ### recursive types -/

/-- C89 for recursive types: `write_to` does in debug builds exactly what it does with unbounded counts, save that it panics
if the number of bytes is not a `usize`; and for values that have an encoding, in both builds, it returns the number of bytes
if that is a `usize`. -/
theorem C89_recursive (cfg : Cfg) (d : Decls) (i : Nat) (x : d.Val i)
    (hc : ∀ k y, x = d.val k y → Counted cfg (d.unfold k i) y) (T : TargetOps τ) (t : τ) :
    (cfg.prof = .debug → (d.machine cfg i).write T x t = match (d.codec cfg i).write T x t with
      | some (n, t') => if n < usizeMod then some (n, t') else none
      | none => none) ∧
    (∀ b, (d.codec cfg i).toBytes x = some b → ∀ n t', (d.codec cfg i).write T x t = some (n, t') → n < usizeMod →
      (d.machine cfg i).write T x t = some (n, t')) := by
  obtain ⟨k, y, rfl⟩ := d.exists_val x
  exact ⟨fun h => C89_debug cfg h (d.unfold k i) y (hc k y rfl) T t,
    fun b hb n t' hw hn => C89_write cfg (d.unfold k i) y (hc k y rfl) (b := b) hb T hw hn⟩

/-- C89 for recursive types: whatever fits into memory is encoded and measured as it is with unbounded counts. -/
theorem C89_recursive_to_bytes (cfg : Cfg) (d : Decls) (i : Nat) (x : d.Val i)
    (hc : ∀ k y, x = d.val k y → Counted cfg (d.unfold k i) y) {b : Bytes}
    (h : (d.codec cfg i).toBytes x = some b) (hb : b.length < usizeMod) :
    (d.machine cfg i).toBytes x = some b ∧
    (∀ n, (d.codec cfg i).encLen cfg x = some n → n < usizeMod → (d.machine cfg i).encLen cfg x = some n) := by
  obtain ⟨k, y, rfl⟩ := d.exists_val x
  have hk : ((d.unfold k i).codec cfg).known = none := Decls.known_unfold d cfg k i
  have he : (d.codec cfg i).encLen cfg (d.val k y) = ((d.unfold k i).codec cfg).encLen cfg y := by
    unfold Codec.encLen Codec.estimate
    rw [hk]; rfl
  have hm : (d.machine cfg i).encLen cfg (d.val k y) = ((d.unfold k i).machine cfg).encLen cfg y := by
    unfold Machine.encLen Machine.estimate
    rw [((d.unfold k i).agrees cfg).known, hk]; rfl
  rw [he, hm]
  exact C89_to_bytes cfg (d.unfold k i) y (hc k y rfl) h hb

/-- C89 for recursive types: estimates are right if they are a `usize`; otherwise a debug build panics or is right, and a
release build is right modulo `usizeMod`. -/
theorem C89_recursive_estimate (cfg : Cfg) (d : Decls) (i : Nat) (x : d.Val i)
    (hc : ∀ k y, x = d.val k y → ¬ (d.unfold k i).someNumber (fun n => usizeMod ≤ bits n) y) :
    ((d.codec cfg i).estimate x < usizeMod → (d.machine cfg i).estimate x = some ((d.codec cfg i).estimate x)) ∧
    (cfg.prof = .debug → ∀ n, (d.machine cfg i).estimate x = some n → n = (d.codec cfg i).estimate x) ∧
    (cfg.prof = .release → ∃ n, (d.machine cfg i).estimate x = some n ∧ n % usizeMod = (d.codec cfg i).estimate x % usizeMod) := by
  obtain ⟨k, y, rfl⟩ := d.exists_val x
  have hk : ((d.unfold k i).codec cfg).known = none := Decls.known_unfold d cfg k i
  have he : (d.codec cfg i).estimate (d.val k y) = ((d.unfold k i).codec cfg).estimate y := by
    unfold Codec.estimate
    rw [hk]; rfl
  have hm : (d.machine cfg i).estimate (d.val k y) = ((d.unfold k i).machine cfg).estimate y := by
    unfold Machine.estimate
    rw [((d.unfold k i).agrees cfg).known, hk]; rfl
  rw [he, hm]
  exact C89_estimate cfg (d.unfold k i) y (hc k y rfl)

/-! ### what happens beyond -/

/-- `Sequence<Padded<(), N>>`; its elements occupy no memory. -/
def zeros (n : Nat) : Schema := .seq (.padded n .unit)

/-- `k` such elements. -/
def manyZeros (n k : Nat) : (zeros n).Val := List.replicate k ()

theorem zeros_list (cfg : Cfg) (T : TargetOps τ) (f : Nat → τ → τ)
    (h0 : ∀ t, f 0 t = t) (hf : ∀ n m t, f m (f n t) = f (n + m) t)
    (hT : ∀ n t, T.pushMany (List.replicate n 0) t = (n, f n t)) (hr : ∀ t, T.resolve t = t) (n : Nat) : ∀ (k : Nat) (t : τ),
    (Codec.padded cfg n Codec.unit).writeList T (List.replicate k ()) t = some (k * n, f (k * n) t)
  | 0, t => by simp [Codec.writeList, W.zero, h0]
  | k + 1, t => by
    have : (Codec.padded cfg n Codec.unit).write T () t = some (n, f n t) := by
      simp [Codec.padded, Codec.unit, W.add, W.zero, W.push, W.resolveZero, hT, hr]
    simp only [List.replicate_succ, Codec.writeList, W.add, this, zeros_list cfg T f h0 hf hT hr n k, hf]
    rw [Nat.succ_mul, Nat.add_comm n]

theorem zeros_write (cfg : Cfg) (T : TargetOps τ) (f : Nat → τ → τ)
    (h0 : ∀ t, f 0 t = t) (hf : ∀ n m t, f m (f n t) = f (n + m) t)
    (hT : ∀ n t, T.pushMany (List.replicate n 0) t = (n, f n t)) (hr : ∀ t, T.resolve t = t) (n k m : Nat) (hm : k * n = m)
    (t : τ) : ((Schema.seq (.padded n .unit)).codec cfg).write T (List.replicate k ()) t = some (m, f m t) := by
  show W.add ((Codec.padded cfg n Codec.unit).writeList T (List.replicate k ())) (W.resolveZero T) t = _
  simp only [W.add, zeros_list cfg T f h0 hf hT hr n k t, W.resolveZero, hr, Nat.add_zero, hm]

theorem zeros_calm (cfg : Cfg) (n k : Nat) : ¬ (zeros n).someDynamic (Huge cfg) (manyZeros n k) := fun ⟨_, _, h⟩ => h

/-- C89, where the bound matters: a sequence of values without any contents, padded to `usizeMod` bytes in all.  In a debug
build its encoding panics.  In a release build `write_to` writes `usizeMod` bytes and returns 0, and the sequence in a `Dynamic`
is encoded – with the length prefix 0 before `usizeMod` bytes – although there is no length prefix for it. -/
theorem C89_wraps (cfg : Cfg) (ho : cfg.encLenOverride = false) (n k : Nat) (hk : k * n = usizeMod) :
    ((zeros n).codec cfg).toBytes (manyZeros n k) = some (List.replicate (usizeMod) 0) ∧
    (cfg.prof = .debug → ((zeros n).machine cfg).toBytes (manyZeros n k) = none ∧ ((zeros n).machine cfg).encLen cfg (manyZeros n k) = none) ∧
    (cfg.prof = .release →
      ((zeros n).machine cfg).write vecTarget (manyZeros n k) [] = some (0, List.replicate (usizeMod) 0) ∧
      ((Schema.dynamic .u8 (zeros n)).codec cfg).toBytes (manyZeros n k) = none ∧
      ((Schema.dynamic .u8 (zeros n)).machine cfg).toBytes (manyZeros n k) = some (0 :: List.replicate (usizeMod) 0)) := by
  have hv : ∀ t, ((zeros n).codec cfg).write vecTarget (manyZeros n k) t = some (usizeMod, t ++ List.replicate (usizeMod) 0) := fun t =>
    zeros_write cfg vecTarget (fun n t => t ++ List.replicate n 0) (fun t => List.append_nil t)
      (fun n m t => by simp only [List.append_assoc, List.replicate_append_replicate])
      (fun n t => by simp only [vecTarget, List.length_replicate]) (fun _ => rfl)
      n k _ hk t
  have hs : ((zeros n).codec cfg).write sinkTarget (manyZeros n k) () = some (usizeMod, ()) :=
    zeros_write cfg sinkTarget (fun _ t => t) (fun _ => rfl) (fun _ _ _ => rfl)
      (fun n t => by simp only [sinkTarget, List.length_replicate]) (fun _ => rfl)
      n k _ hk ()
  have hl : ((zeros n).codec cfg).encLen cfg (manyZeros n k) = some (usizeMod) := by
    rw [Codec.encLen, ho, if_neg Bool.false_ne_true, show sinkTarget.create = () from rfl, hs]
  have hd : cfg.prof = .debug → ∀ t, ((zeros n).machine cfg).write vecTarget (manyZeros n k) t = none := fun hp t => by
    rw [C89_debug cfg hp (zeros n) (manyZeros n k) (.inl ho), hv]; exact if_neg (Nat.lt_irrefl _)
  have hds : cfg.prof = .debug → ((zeros n).machine cfg).write sinkTarget (manyZeros n k) () = none := fun hp => by
    rw [C89_debug cfg hp (zeros n) (manyZeros n k) (.inl ho), hs]; exact if_neg (Nat.lt_irrefl _)
  have hr : cfg.prof = .release → ∀ t, ((zeros n).machine cfg).write vecTarget (manyZeros n k) t =
      some (0, t ++ List.replicate (usizeMod) 0) := fun hp t => by
    rw [C89_release cfg hp (zeros n) (manyZeros n k) (.inl ho) (zeros_calm cfg n k), hv, ← Nat.mod_self usizeMod]
  have hrs : cfg.prof = .release → ((zeros n).machine cfg).write sinkTarget (manyZeros n k) () = some (0, ()) := fun hp => by
    rw [C89_release cfg hp (zeros n) (manyZeros n k) (.inl ho) (zeros_calm cfg n k), hs, ← Nat.mod_self usizeMod]
  generalize List.replicate (usizeMod) (0 : Byte) = z at hv hr ⊢
  refine ⟨?_, fun hp => ⟨?_, ?_⟩, fun hp => ⟨?_, ?_, ?_⟩⟩
  · rw [Codec.toBytes, Codec.writeToVec, hv]; rfl
  · rw [Machine.toBytes, hd hp]
  · rw [Machine.encLen, ho, if_neg Bool.false_ne_true, show sinkTarget.create = () from rfl, hds hp]
  · rw [hr hp]; rfl
  · have : ((Schema.dynamic .u8 (zeros n)).codec cfg).write vecTarget (manyZeros n k) [] = none := by
      show (match ((zeros n).codec cfg).encLen cfg (manyZeros n k) with
        | none => W.panic
        | some l => if l ≤ LenPref.u8.maxLen then fun t => _ else W.panic) [] = none
      rw [hl]
      have := usizeMod_ge
      exact congrFun (if_neg (show ¬ usizeMod ≤ LenPref.u8.maxLen from fun h : usizeMod ≤ 255 => by omega)) []
    simp only [Codec.toBytes, Codec.writeToVec, this]
  · have hm : ((zeros n).machine cfg).encLen cfg (manyZeros n k) = some 0 := by
      rw [Machine.encLen, ho, if_neg Bool.false_ne_true, show sinkTarget.create = () from rfl, hrs hp]
    have hq : Machine.prefixWrite cfg.prof .u8 vecTarget 0 [] = some (1, [0]) := by cases cfg.prof <;> rfl
    have key : ((Schema.dynamic .u8 (zeros n)).machine cfg).write vecTarget (manyZeros n k) [] = some (1, 0 :: z) := by
      show (match ((zeros n).machine cfg).encLen cfg (manyZeros n k) with
        | none => W.panic
        | some l => if l ≤ LenPref.u8.maxLen then fun t => match uadd cfg.prof l LenPref.u8.len with
          | none => none
          | some j => W.allU cfg.prof [Machine.prefixWrite cfg.prof .u8 vecTarget l,
              ((zeros n).machine cfg).write vecTarget (manyZeros n k)] (W.resolveZero vecTarget) (vecTarget.anticipate j t)
          else W.panic) [] = _
      rw [hm]
      dsimp only
      rw [if_pos (Nat.zero_le _), uadd_of_lt (show 0 + LenPref.u8.len < usizeMod by decide)]
      show W.addU cfg.prof (W.addU cfg.prof (Machine.prefixWrite cfg.prof .u8 vecTarget 0)
        (((zeros n).machine cfg).write vecTarget (manyZeros n k))) (W.resolveZero vecTarget) [] = _
      simp only [W.addU, hq, hr hp, hp]
      rfl
    simp only [Machine.toBytes, key]

theorem nat_write (p : Profile) (n : Nat) (h : (serializeN n).length < usizeMod) (t : Bytes) :
    (Machine.zarithN p).write vecTarget n t = some ((serializeN n).length, t ++ serializeN n) := by
  show (match uadd p (serializeN n).length 0 with | none => none | some k => some (k, t ++ serializeN n)) = _
  rw [uadd_of_lt (show (serializeN n).length + 0 < usizeMod from h)]
  rfl

/-- C89, where the condition on numbers matters, on targets where `usize` has 32 bits: `bits() as usize` makes one bit of
`2 ^ 32 + 1` bits, and the estimate of a number of that many bits – it occupies 512 MiB – is one byte.  With
`enc_len_estimable_override` that estimate becomes the length prefix, in debug builds too; with unbounded counts there is no
length prefix of one byte for it.  (Where `usize` has 64 bits no number has that many.) -/
theorem C89_bits_fails (prof : Profile) (pad c : Bool) (n : Nat) (hn : bits n = usizeMod + 1) :
    let cfg : Cfg := ⟨prof, true, pad, c⟩
    (Schema.zarithN.machine cfg).estimate n = some 1 ∧
    ∃ b, (Schema.zarithN.codec cfg).toBytes n = some b ∧ 255 < b.length ∧ b.length < usizeMod ∧
      ((Schema.dynamic .u8 .zarithN).codec cfg).toBytes n = none ∧
      ((Schema.dynamic .u8 .zarithN).machine cfg).toBytes n = some (1 :: b) := by
  intro cfg
  have hu := usizeMod_ge
  have hm : (usizeMod + 1) % usizeMod = 1 := by rw [Nat.add_mod_left]; exact Nat.mod_eq_of_lt (by omega)
  have he : (Schema.zarithN.machine cfg).estimate n = some 1 := by
    show some (divCeil (bits n % usizeMod) 7) = some 1
    rw [hn, hm]
    rfl
  have h0 : n ≠ 0 := by
    rintro rfl
    rw [bits_zero] at hn
    omega
  have hl : (serializeN n).length = divCeil (usizeMod + 1) 7 := by rw [serializeN_eq, ← hn, divCeil_bits h0]
  have h1 : 255 < (serializeN n).length ∧ (serializeN n).length < usizeMod := by
    rw [hl, divCeil]
    omega
  refine ⟨he, serializeN n, rfl, h1.1, h1.2, ?_, ?_⟩
  · have hc : Codec.zarithN.encLen cfg n = some (divCeil (usizeMod + 1) 7) := by
      show some (divCeil (bits n) 7) = _
      rw [hn]
    have : ((Schema.dynamic .u8 .zarithN).codec cfg).write vecTarget n [] = none := by
      show (Codec.dynamic cfg .u8 Codec.zarithN).write vecTarget n [] = none
      simp only [Codec.dynamic, hc]
      exact congrFun (if_neg (show ¬ divCeil (usizeMod + 1) 7 ≤ 255 by rw [← hl]; omega)) []
    simp only [Codec.toBytes, Codec.writeToVec, this]
  · have hq : Machine.prefixWrite cfg.prof .u8 vecTarget 1 [] = some (1, [1]) := by cases prof <;> rfl
    have hw := nat_write cfg.prof n h1.2 [1]
    have key : ((Schema.dynamic .u8 .zarithN).machine cfg).write vecTarget n [] =
        some (1 + (serializeN n).length, 1 :: serializeN n) := by
      show (match (Schema.zarithN.machine cfg).estimate n with
        | none => W.panic
        | some l => if l ≤ LenPref.u8.maxLen then fun t => match uadd cfg.prof l LenPref.u8.len with
          | none => none
          | some j => W.allU cfg.prof [Machine.prefixWrite cfg.prof .u8 vecTarget l,
              (Schema.zarithN.machine cfg).write vecTarget n] (W.resolveZero vecTarget) (vecTarget.anticipate j t)
          else W.panic) [] = _
      rw [he]
      dsimp only
      rw [if_pos (by decide), uadd_of_lt (show 1 + LenPref.u8.len < usizeMod by decide)]
      show W.addU cfg.prof (W.addU cfg.prof (Machine.prefixWrite cfg.prof .u8 vecTarget 1)
        ((Machine.zarithN cfg.prof).write vecTarget n)) (W.resolveZero vecTarget) [] = _
      have hs : 1 + (serializeN n).length < usizeMod := by rw [hl, divCeil]; omega
      simp only [W.addU, hq, hw, uadd_of_lt hs, W.resolveZero, uadd_of_lt (show 1 + (serializeN n).length + 0 < usizeMod from hs)]
      rfl
    simp only [Machine.toBytes, key]

/-- There is such a number. -/
example : bits (2 ^ usizeMod) = usizeMod + 1 := by
  rw [bits_shift usizeMod (Nat.le_refl _), Nat.div_self (Nat.two_pow_pos _), Nat.add_comm, bits_succ (by decide), bits_zero]

/-- A value that meets the conditions. -/
example : Counted ⟨.release, true, false, false⟩ (.seq .zarithN) ([5, 2 ^ 64] : List Nat) :=
  .inr fun ⟨(y : Nat), (hy : y ∈ [5, 2 ^ 64]), (h : usizeMod ≤ bits y)⟩ => by
    have h2 : bits y ≤ 65 := by
      simp only [List.mem_cons, List.not_mem_nil, or_false] at hy
      rcases hy with rfl | rfl <;> exact bits_le (by decide)
    have := usizeMod_ge
    omega

/-- `2 ^ 44` values of a megabyte each, or `2 ^ 12` of them where `usize` has 32 bits. -/
example : 2 ^ (usizeBits.1 - 20) * 2 ^ 20 = usizeMod := by
  rw [← Nat.pow_add, usizeMod, Nat.sub_add_cancel (by rcases usizeBits.2 with h | h <;> rw [h] <;> decide)]

/-- A value with a `Dynamic` inside, and its count. -/
example : ((Schema.dynamic .u8 .bytes).machine ⟨.release, false, false, false⟩).toBytes [1, 2, 3] = some [3, 1, 2, 3] := rfl

/-- A value of a recursive type. -/
example : (u8Seq.codec ⟨.release, false, false, false⟩ 0).toBytes u8Seq57 = some [5, 0xff, 7, 0] ∧
    (u8Seq.machine ⟨.release, false, false, false⟩ 0).toBytes u8Seq57 = some [5, 0xff, 7, 0] ∧
    (u8Seq.machine ⟨.release, false, false, false⟩ 0).estimate u8Seq57 = some 4 := ⟨rfl, rfl, rfl⟩

end Verif.Props
