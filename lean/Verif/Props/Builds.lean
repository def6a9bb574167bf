import Verif.Lemmas.Width
import Verif.Refine.Related
import Verif.Lemmas.Sound
import Verif.Lemmas.Recursive
import Verif.Props.Decode
/-
C77 (debug and release builds differ only where debug builds panic), C78 (what the cargo features change).
-/
namespace Verif.Props

open Verif

/-! ### C77 -/

/-- C77, calls of the parsers: from any state and for any list of calls – with any arguments – a debug build sees what a
release build sees, or the same up to some call, which panics. -/
theorem C77_calls (k : Backend) : ∀ (ops : List Op) (s : k.State),
    (k.ops .debug).trace ops s = (k.ops .release).trace ops s ∨
      ∃ pre, (k.ops .debug).trace ops s = pre ++ [.panic] ∧ pre <+: (k.ops .release).trace ops s
  | [], _ => .inl rfl
  | op :: ops, s => by
    unfold ParserOps.trace
    rcases k.run_debug op s with h | h
    · rw [h]
      exact .inr ⟨[], rfl, List.nil_prefix⟩
    · rw [← h]
      cases (k.ops .debug).run op s with
      | ok o s1 =>
        rcases C77_calls k ops s1 with e | ⟨pre, e, hp⟩
        · exact .inl (congrArg (Res.ok o :: ·) e)
        · exact .inr ⟨.ok o :: pre, congrArg (Res.ok o :: ·) e, (List.cons_prefix_cons).2 ⟨rfl, hp⟩⟩
      | err o s1 =>
        rcases C77_calls k ops s1 with e | ⟨pre, e, hp⟩
        · exact .inl (congrArg (Res.err o :: ·) e)
        · exact .inr ⟨.err o :: pre, congrArg (Res.err o :: ·) e, (List.cons_prefix_cons).2 ⟨rfl, hp⟩⟩
      | _ => exact .inl rfl

/-- C77, decoding from any state of any parser, for every type; the other features may be set differently as long as the
check of paddings agrees. -/
theorem C77_parse (s : Schema) (k : Backend) (enc enc' pad c c' : Bool) (st : k.State) :
    (s.codec ⟨.debug, enc, pad, c⟩).parse (k.ops .debug) st = .panic ∨
      (s.codec ⟨.debug, enc, pad, c⟩).parse (k.ops .debug) st =
        (s.codec ⟨.release, enc', pad, c'⟩).parse (k.ops .release) st :=
  (k.related enc enc' pad c c').schema s nofun st

/-- C77, giving back the unread input. -/
theorem C77_cleanup (k : Backend) (st : k.State) :
    k.cleanup .debug st = .panic ∨ k.cleanup .debug st = k.cleanup .release st := k.cleanup_debug st

/-- … for any type all of whose decoders have this property. -/
theorem tryDecode_debug {α : Type} {cD cR : Codec α} {k : Backend} (enc enc' pad pad' c : Bool)
    (h : Stricter (cD.parse (k.ops .debug)) (cR.parse (k.ops .release))) (buf : Bytes) :
    cD.tryDecode ⟨.debug, enc, pad, c⟩ k buf = .panic ∨
      cD.tryDecode ⟨.debug, enc, pad, c⟩ k buf = cR.tryDecode ⟨.release, enc', pad', c⟩ k buf := by
  unfold Codec.tryDecode
  simp only []
  rcases h (k.init buf) with h | h
  · rw [h]; exact .inl rfl
  · rw [h]
    cases cR.parse (k.ops .release) (k.init buf) with
    | ok a st => exact k.finish_debug enc enc' pad pad' c a st
    | _ => exact .inr rfl

theorem tryDecodeFrom_debug {α : Type} {cD cR : Codec α} {k : Backend} (enc enc' pad pad' c ih : Bool)
    (h : Stricter (cD.parse (k.ops .debug)) (cR.parse (k.ops .release))) (inp : Input) :
    cD.tryDecodeFrom ⟨.debug, enc, pad, c⟩ ih k inp = .panic ∨
      cD.tryDecodeFrom ⟨.debug, enc, pad, c⟩ ih k inp = cR.tryDecodeFrom ⟨.release, enc', pad', c⟩ ih k inp := by
  unfold Codec.tryDecodeFrom
  cases inp.toBuffer ih with
  | none => exact .inl rfl
  | some r =>
    cases r with
    | error e => exact .inr rfl
    | ok buf => exact tryDecode_debug enc enc' pad pad' c h buf

theorem unwrap_debug {α : Type} {o o' : DecodeOut α} (h : o = .panic ∨ o = o') :
    o.unwrap = .panic ∨ o.unwrap = o'.unwrap := by
  rcases h with h | h
  · rw [h]; exact .inl rfl
  · rw [h]; exact .inr rfl

/-- C77, `try_decode` with any of the parsers, `decode` and `decode_memo`: of any input. -/
theorem C77_decode (s : Schema) (enc enc' pad c ih : Bool) (inp : Input) :
    (∀ k, (s.codec ⟨.debug, enc, pad, c⟩).tryDecodeFrom ⟨.debug, enc, pad, c⟩ ih k inp = .panic ∨
      (s.codec ⟨.debug, enc, pad, c⟩).tryDecodeFrom ⟨.debug, enc, pad, c⟩ ih k inp =
        (s.codec ⟨.release, enc', pad, c⟩).tryDecodeFrom ⟨.release, enc', pad, c⟩ ih k inp) ∧
    ((s.codec ⟨.debug, enc, pad, c⟩).decode ⟨.debug, enc, pad, c⟩ ih inp = .panic ∨
      (s.codec ⟨.debug, enc, pad, c⟩).decode ⟨.debug, enc, pad, c⟩ ih inp =
        (s.codec ⟨.release, enc', pad, c⟩).decode ⟨.release, enc', pad, c⟩ ih inp) ∧
    ((s.codec ⟨.debug, enc, pad, c⟩).decodeMemo ⟨.debug, enc, pad, c⟩ ih inp = .panic ∨
      (s.codec ⟨.debug, enc, pad, c⟩).decodeMemo ⟨.debug, enc, pad, c⟩ ih inp =
        (s.codec ⟨.release, enc', pad, c⟩).decodeMemo ⟨.release, enc', pad, c⟩ ih inp) :=
  have h := fun k => tryDecodeFrom_debug enc enc' pad pad c ih (C77_parse s k enc enc' pad c c) inp
  ⟨h, unwrap_debug (h .byte), unwrap_debug (h .memo)⟩

/-- Recursive types, from the unfoldings of their definitions. -/
theorem recParse_debug (d : Decls) (i : Nat) (k : Backend) (enc enc' pad c c' : Bool) :
    Stricter ((d.codec ⟨.debug, enc, pad, c⟩ i).parse (k.ops .debug))
      ((d.codec ⟨.release, enc', pad, c'⟩ i).parse (k.ops .release)) := by
  intro st
  have h := fun n => C77_parse (d.unfold n i) k enc enc' pad c c' st
  by_cases hex : ∃ n, ((d.unfold n i).codec ⟨.debug, enc, pad, c⟩).parse (k.ops .debug) st ≠ .diverge
  · obtain ⟨n, hn⟩ := hex
    rw [d.parse_eq hn]
    rcases h n with e | e
    · rw [M.map_run, e]; exact .inl rfl
    · rw [d.parse_eq (e ▸ hn), M.map_run, M.map_run, e]
      exact .inr rfl
  · have h1 : (d.codec ⟨.debug, enc, pad, c⟩ i).parse (k.ops .debug) st = .diverge := dif_neg hex
    have hex' : ¬ ∃ n, ((d.unfold n i).codec ⟨.release, enc', pad, c'⟩).parse (k.ops .release) st ≠ .diverge := by
      rintro ⟨n, hn⟩
      have hd : ((d.unfold n i).codec ⟨.debug, enc, pad, c⟩).parse (k.ops .debug) st = .diverge :=
        Classical.byContradiction fun h' => hex ⟨n, h'⟩
      rcases h n with e | e
      · rw [hd] at e; cases e
      · exact hn (e ▸ hd)
    have h2 : (d.codec ⟨.release, enc', pad, c'⟩ i).parse (k.ops .release) st = .diverge := dif_neg hex'
    rw [h1, h2]
    exact .inr rfl

/-- C77 for recursive types. -/
theorem C77_recursive (d : Decls) (i : Nat) (k : Backend) (enc enc' pad c ih : Bool) (inp : Input) :
    (d.codec ⟨.debug, enc, pad, c⟩ i).tryDecodeFrom ⟨.debug, enc, pad, c⟩ ih k inp = .panic ∨
      (d.codec ⟨.debug, enc, pad, c⟩ i).tryDecodeFrom ⟨.debug, enc, pad, c⟩ ih k inp =
        (d.codec ⟨.release, enc', pad, c⟩ i).tryDecodeFrom ⟨.release, enc', pad, c⟩ ih k inp :=
  tryDecodeFrom_debug enc enc' pad pad c ih (recParse_debug d i k enc enc' pad c c) inp

/-- C77, encoding: the build makes no difference at all – to no target, whatever its methods do, and to no way of
measuring. -/
theorem C77_write (s : Schema) (p p' : Profile) (enc pad pad' c c' : Bool) (x : s.Val) :
    (∀ {τ : Type} (T : TargetOps τ), (s.codec ⟨p, enc, pad, c⟩).write T x = (s.codec ⟨p', enc, pad', c'⟩).write T x) ∧
    (s.codec ⟨p, enc, pad, c⟩).estimate x = (s.codec ⟨p', enc, pad', c'⟩).estimate x ∧
    (s.codec ⟨p, enc, pad, c⟩).encLen ⟨p, enc, pad, c⟩ x = (s.codec ⟨p', enc, pad', c'⟩).encLen ⟨p', enc, pad', c'⟩ x ∧
    (s.codec ⟨p, enc, pad, c⟩).toBytes x = (s.codec ⟨p', enc, pad', c'⟩).toBytes x := by
  have h : Codec.SameWrite (s.codec ⟨p, enc, pad, c⟩) (s.codec ⟨p', enc, pad', c'⟩) :=
    s.sameWrite (cfg := ⟨p, enc, pad, c⟩) (cfg' := ⟨p', enc, pad', c'⟩) rfl
  refine ⟨fun T => h.write T x, h.estimate x, h.encLen (cfg := ⟨p, enc, pad, c⟩) (cfg' := ⟨p', enc, pad', c'⟩) rfl x, ?_⟩
  unfold Codec.toBytes Codec.writeToVec
  rw [h.write]

/-- … also for recursive types. -/
theorem C77_write_recursive (d : Decls) (i : Nat) (p p' : Profile) (enc pad pad' c c' : Bool) (x : d.Val i) {τ : Type}
    (T : TargetOps τ) : (d.codec ⟨p, enc, pad, c⟩ i).write T x = (d.codec ⟨p', enc, pad', c'⟩ i).write T x := by
  induction x using Quot.ind with
  | mk y => exact (C77_write (d.unfold y.1 i) p p' enc pad pad' c c' y.2).1 T

/-- The builds do differ: a value followed by padding that is not there is a panic in debug builds, and an error in
release builds. -/
theorem C77_differs (enc pad c : Bool) :
    ((Schema.vpadded 3 .bytes).codec ⟨.debug, enc, pad, c⟩).tryDecode ⟨.debug, enc, pad, c⟩ .slice [1] = .panic ∧
    ((Schema.vpadded 3 .bytes).codec ⟨.release, enc, pad, c⟩).tryDecode ⟨.release, enc, pad, c⟩ .slice [1] =
      .err (.parse (.window (.openWouldExceedWindow 1 (usizeMod - 2)))) () := by
  refine ⟨rfl, ?_⟩
  have h : ((Schema.vpadded 3 .bytes).codec ⟨.release, enc, pad, c⟩).parse SliceParser.ops (SliceParser.fromBuffer [1]) =
      .err (.window (.openWouldExceedWindow 1 (usizeMod - 2))) (SliceParser.fromBuffer [1]) := by
    show (Codec.vpadded _ 3 Codec.bytes).parse SliceParser.ops _ = _
    have e : usub .release 1 3 = some (usizeMod - 2) := by
      have := usizeMod_ge
      exact usub_back (by decide) (by omega) (by omega)
    have e' : SliceParser.ops.remainder (SliceParser.fromBuffer [1]) = .ok 1 (SliceParser.fromBuffer [1]) := rfl
    simp only [Codec.vpadded, M.bind_run, e', Out.bind_ok, e]
    run_wide
    rfl
  have h' : ((Schema.vpadded 3 .bytes).codec ⟨.release, enc, pad, c⟩).parse (Backend.slice.ops .release) (Backend.slice.init [1]) =
      .err (.window (.openWouldExceedWindow 1 (usizeMod - 2))) (SliceParser.fromBuffer [1]) := h
  simp only [Codec.tryDecode, h']

/-! ### C78 -/

/-- C78, `check_padding`: with the check, decoding does what it does without, or reports padding one of whose bytes is not
zero. -/
theorem C78_padding (s : Schema) (hs : s.sized = true) (p : Profile) (enc c ih : Bool) (k : Backend) :
    (∀ st, (s.codec ⟨p, enc, true, c⟩).parse (k.ops p) st = (s.codec ⟨p, enc, false, c⟩).parse (k.ops p) st ∨
      ∃ bs st', (s.codec ⟨p, enc, true, c⟩).parse (k.ops p) st = .err (.token (.nonNullPaddingByte bs)) st' ∧
        ∃ b ∈ bs, b ≠ 0) ∧
    ∀ inp, (s.codec ⟨p, enc, true, c⟩).tryDecodeFrom ⟨p, enc, true, c⟩ ih k inp =
        (s.codec ⟨p, enc, false, c⟩).tryDecodeFrom ⟨p, enc, false, c⟩ ih k inp ∨
      ∃ bs, (s.codec ⟨p, enc, true, c⟩).tryDecodeFrom ⟨p, enc, true, c⟩ ih k inp =
        .err (.parse (.token (.nonNullPaddingByte bs))) () ∧ ∃ b ∈ bs, b ≠ 0 := by
  have h := (PadOnly.related (P := k.ops p) p enc enc true c c fun n hn => k.consume_length p hn).schema s fun _ => hs
  refine ⟨h, fun inp => ?_⟩
  unfold Codec.tryDecodeFrom
  cases inp.toBuffer ih with
  | none => exact .inl rfl
  | some r =>
    cases r with
    | error e => exact .inl rfl
    | ok buf =>
      unfold Codec.tryDecode
      simp only []
      rcases h (k.init buf) with e | ⟨bs, st', e, hb⟩
      · rw [e]; exact .inl rfl
      · rw [e]; exact .inr ⟨bs, rfl, hb⟩

/-- C78, `enc_len_estimable_override`: nothing is decoded differently, on any parser. -/
theorem C78_estimates (s : Schema) (p : Profile) (enc enc' pad c ih : Bool) :
    (∀ {σ : Type} (P : ParserOps σ), (s.codec ⟨p, enc, pad, c⟩).parse P = (s.codec ⟨p, enc', pad, c⟩).parse P) ∧
    ∀ k inp, (s.codec ⟨p, enc, pad, c⟩).tryDecodeFrom ⟨p, enc, pad, c⟩ ih k inp =
      (s.codec ⟨p, enc', pad, c⟩).tryDecodeFrom ⟨p, enc', pad, c⟩ ih k inp := by
  have h : ∀ {σ : Type} (P : ParserOps σ), (s.codec ⟨p, enc, pad, c⟩).parse P = (s.codec ⟨p, enc', pad, c⟩).parse P :=
    fun P => (Related.same P p enc enc' pad c c).schema s nofun
  refine ⟨h, fun k inp => ?_⟩
  unfold Codec.tryDecodeFrom Codec.tryDecode
  simp only [h]
  rfl

/-- C78, `check_complete_parse`: parsing is not affected, and `try_decode` does what it does without the check, or
reports the bytes that are left. -/
theorem C78_complete (s : Schema) (hs : s.sized = true) (p : Profile) (enc pad : Bool) :
    s.codec ⟨p, enc, pad, true⟩ = s.codec ⟨p, enc, pad, false⟩ ∧
    ∀ k (buf : Bytes), buf.length ≤ isizeMax →
      (s.codec ⟨p, enc, pad, true⟩).tryDecode ⟨p, enc, pad, true⟩ k buf =
        (s.codec ⟨p, enc, pad, false⟩).tryDecode ⟨p, enc, pad, false⟩ k buf ∨
      ∃ x l, (s.codec ⟨p, enc, pad, false⟩).tryDecode ⟨p, enc, pad, false⟩ k buf = .ok x () ∧
        (s.codec ⟨p, enc, pad, true⟩).tryDecode ⟨p, enc, pad, true⟩ k buf = .err (.nonEmpty l) () := by
  refine ⟨s.codec_complete p enc pad true, fun k buf hb => ?_⟩
  rw [s.codec_complete p enc pad true]
  unfold Codec.tryDecode
  simp only []
  cases hp : (s.codec ⟨p, enc, pad, false⟩).parse (k.ops p) (k.init buf) with
  | ok x st =>
    obtain ⟨rest, _, hh⟩ := s.inv ⟨p, enc, pad, false⟩ hs (k.holds_init hb) hp
    simp only [finish_plain (cfg := ⟨p, enc, pad, false⟩) rfl k x st]
    by_cases hk : k = .slice
    · subst hk
      obtain ⟨l, hl, _⟩ := finish_slice (cfg := ⟨p, enc, pad, true⟩) rfl x hh
      exact .inr ⟨x, l, rfl, hl⟩
    · rw [finish_complete (cfg := ⟨p, enc, pad, true⟩) rfl hk x hh]
      split
      · exact .inl rfl
      · exact .inr ⟨x, _, rfl, rfl⟩
  | _ => exact .inl rfl

/-- C78, `implicit_hexstring`: only inputs that are text are treated differently. -/
theorem C78_hex {α : Type} (c : Codec α) (cfg : Cfg) (ih ih' : Bool) (k : Backend) (inp : Input) (h : ∀ t, inp ≠ .text t) :
    c.tryDecodeFrom cfg ih k inp = c.tryDecodeFrom cfg ih' k inp := by
  cases inp with
  | bytes _ => rfl
  | hex _ => rfl
  | text t => exact absurd rfl (h t)

/-- Families all of whose unfoldings are parsed alike are. -/
theorem _root_.Verif.Decls.parse_congr (d : Decls) {i : Nat} {cfg cfg' : Cfg} {σ : Type} (P : ParserOps σ)
    (h : ∀ n, ((d.unfold n i).codec cfg).parse P = ((d.unfold n i).codec cfg').parse P) :
    (d.codec cfg i).parse P = (d.codec cfg' i).parse P := by
  funext st
  by_cases hex : ∃ n, ((d.unfold n i).codec cfg).parse P st ≠ .diverge
  · obtain ⟨n, hn⟩ := hex
    rw [d.parse_eq hn, d.parse_eq (h n ▸ hn), M.map_run, M.map_run, h n]
  · have h1 : (d.codec cfg i).parse P st = .diverge := dif_neg hex
    have h2 : (d.codec cfg' i).parse P st = .diverge := dif_neg fun ⟨n, hn⟩ => hex ⟨n, (h n).symm ▸ hn⟩
    rw [h1, h2]

/-- C78 for recursive types. -/
theorem C78_recursive (d : Decls) (hs : ∀ j, (d.body j).sized = true) (i : Nat) (p : Profile) (enc enc' pad c : Bool) (k : Backend) :
    (∀ st, (d.codec ⟨p, enc, true, c⟩ i).parse (k.ops p) st = (d.codec ⟨p, enc, false, c⟩ i).parse (k.ops p) st ∨
      ∃ bs st', (d.codec ⟨p, enc, true, c⟩ i).parse (k.ops p) st = .err (.token (.nonNullPaddingByte bs)) st' ∧
        ∃ b ∈ bs, b ≠ 0) ∧
    (∀ {σ : Type} (P : ParserOps σ), (d.codec ⟨p, enc, pad, c⟩ i).parse P = (d.codec ⟨p, enc', pad, c⟩ i).parse P) ∧
    (∀ {σ : Type} (P : ParserOps σ), (d.codec ⟨p, enc, pad, true⟩ i).parse P = (d.codec ⟨p, enc, pad, false⟩ i).parse P) ∧
    ∀ buf : Bytes, buf.length ≤ isizeMax →
      (d.codec ⟨p, enc, pad, true⟩ i).tryDecode ⟨p, enc, pad, true⟩ k buf =
        (d.codec ⟨p, enc, pad, false⟩ i).tryDecode ⟨p, enc, pad, false⟩ k buf ∨
      ∃ x l, (d.codec ⟨p, enc, pad, false⟩ i).tryDecode ⟨p, enc, pad, false⟩ k buf = .ok x () ∧
        (d.codec ⟨p, enc, pad, true⟩ i).tryDecode ⟨p, enc, pad, true⟩ k buf = .err (.nonEmpty l) () := by
  have hc : ∀ {σ : Type} (P : ParserOps σ),
      (d.codec ⟨p, enc, pad, true⟩ i).parse P = (d.codec ⟨p, enc, pad, false⟩ i).parse P := fun P =>
    d.parse_congr P fun n => by rw [(d.unfold n i).codec_complete p enc pad true]
  refine ⟨fun st => ?_, fun P => d.parse_congr P fun n => (C78_estimates (d.unfold n i) p enc enc' pad c false).1 P, hc,
    fun buf hb => ?_⟩
  · have h := fun n => (C78_padding (d.unfold n i) (d.sized hs n i) p enc c false k).1 st
    by_cases hex : ∃ n, ((d.unfold n i).codec ⟨p, enc, true, c⟩).parse (k.ops p) st ≠ .diverge
    · obtain ⟨n, hn⟩ := hex
      rw [d.parse_eq hn]
      rcases h n with e | ⟨bs, st', e, hb⟩
      · rw [d.parse_eq (e ▸ hn), M.map_run, M.map_run, e]
        exact .inl rfl
      · rw [M.map_run, e]
        exact .inr ⟨bs, st', rfl, hb⟩
    · have h1 : (d.codec ⟨p, enc, true, c⟩ i).parse (k.ops p) st = .diverge := dif_neg hex
      have hex' : ¬ ∃ n, ((d.unfold n i).codec ⟨p, enc, false, c⟩).parse (k.ops p) st ≠ .diverge := by
        rintro ⟨n, hn⟩
        have hd : ((d.unfold n i).codec ⟨p, enc, true, c⟩).parse (k.ops p) st = .diverge :=
          Classical.byContradiction fun h' => hex ⟨n, h'⟩
        rcases h n with e | ⟨bs, st', e, _⟩
        · exact hn (e ▸ hd)
        · rw [hd] at e; cases e
      have h2 : (d.codec ⟨p, enc, false, c⟩ i).parse (k.ops p) st = .diverge := dif_neg hex'
      rw [h1, h2]
      exact .inl rfl
  · unfold Codec.tryDecode
    simp only [hc]
    cases hp : (d.codec ⟨p, enc, pad, false⟩ i).parse (k.ops p) (k.init buf) with
    | ok a st =>
      obtain ⟨n, x, rfl, hx⟩ := d.parse_inv hp
      obtain ⟨rest, _, hh⟩ := (d.unfold n i).inv ⟨p, enc, pad, false⟩ (d.sized hs n i) (k.holds_init hb) hx
      simp only [finish_plain (cfg := ⟨p, enc, pad, false⟩) rfl k _ st]
      by_cases hk : k = .slice
      · subst hk
        obtain ⟨l, hl, _⟩ := finish_slice (cfg := ⟨p, enc, pad, true⟩) rfl (d.val n x) hh
        exact .inr ⟨_, l, rfl, hl⟩
      · rw [finish_complete (cfg := ⟨p, enc, pad, true⟩) rfl hk _ hh]
        split
        · exact .inl rfl
        · exact .inr ⟨_, _, rfl, rfl⟩
    | _ => exact .inl rfl

/-! ### examples -/

/-- A flag, a byte with padding. -/
def padRec : Schema := .record (.cons .bool (.cons (.padded 2 (.int .u8)) .nil))

example : padRec.sized = true := rfl

/-- Padding that is not zero. -/
example (p : Profile) (enc c : Bool) :
    (padRec.codec ⟨p, enc, true, c⟩).parse (Backend.byte.ops p) (Backend.byte.init [255, 7, 0, 3]) =
      .err (.token (.nonNullPaddingByte [0, 3])) ⟨[255, 7, 0, 3], ⟨4, [], 4⟩⟩ ∧
    (padRec.codec ⟨p, enc, false, c⟩).parse (Backend.byte.ops p) (Backend.byte.init [255, 7, 0, 3]) =
      .ok (true, (7#8, ())) ⟨[255, 7, 0, 3], ⟨4, [], 4⟩⟩ := by
  cases p <;> exact ⟨rfl, rfl⟩

example (p : Profile) (enc pad : Bool) :
    (padRec.codec ⟨p, enc, pad, false⟩).tryDecode ⟨p, enc, pad, false⟩ .slice [255, 7, 0, 0, 1] = .ok (true, (7#8, ())) () := by
  cases p <;> cases pad <;> rfl

end Verif.Props
