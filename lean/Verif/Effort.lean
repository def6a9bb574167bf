import Verif.Schema
/-
The work done by `write_to`: the code of Verif/Codec with every `push_*` call counted, those made to measure a value before it is
written among them.  Without the feature `enc_len_estimable_override`, `enc_len` (src/conv/mod.rs:159-161) is `write_to` into a counting
sink; with it (178-192), it is `estimate`, and the calls of `unknown` that makes are counted.  `Dynamic::write_to`
(src/dynamic.rs:371-387) calls `enc_len` on its contents before it writes them.
-/
namespace Verif

/-- `Estimable` for a type, with a counter: `unknown` also returns how many calls of `unknown` it took, itself among them. -/
structure Gauge (α : Type) where
  known : Option Nat
  unknown : α → Nat × Nat

namespace Gauge

variable {α : Type}

/-- src/conv/len.rs:160-162 `Estimable::estimate`. -/
def estimate (g : Gauge α) (x : α) : Nat × Nat := match g.known with
  | some n => (n, 0)
  | none => g.unknown x

/-- One more call, which returns `f n` if those it makes return `n`. -/
def call (f : Nat → Nat) (r : Nat × Nat) : Nat × Nat := (f r.1, r.2 + 1)

/-- `iter().map(f).sum()` -/
def total (f : α → Nat × Nat) : List α → Nat × Nat
  | [] => (0, 0)
  | x :: xs => ((f x).1 + (total f xs).1, (f x).2 + (total f xs).2)

/-- Types of which `unknown` makes no further calls. -/
def leaf (c : Codec α) : Gauge α where
  known := c.known
  unknown x := (c.unknown x, 1)

/-- `Option<T>`: src/conv/len.rs:176-193. -/
def option (g : Gauge α) : Gauge (Option α) where
  known := match g.known with
    | some 0 => some 1
    | _ => none
  unknown x := match x with
    | none => (1, 1)
    | some x => call (1 + ·) (g.estimate x)

/-- `Nullable<T>`: src/schema.rs:313-327. -/
def nullable (g : Gauge α) : Gauge (Option α) where
  known := match g.known with
    | some 0 => some 0
    | _ => none
  unknown x := match x with
    | none => (0, 1)
    | some x => call id (g.estimate x)

/-- `Dynamic<S, T>`: src/dynamic.rs:202-216. -/
def dynamic (S : LenPref) (g : Gauge α) : Gauge α where
  known := match g.known with
    | some n => some (S.len + n)
    | none => none
  unknown x := call (S.len + ·) (g.unknown x)

/-- `VPadded<T, N>` (src/dynamic.rs:484-490) and `AutoBox<T>` (src/autobox.rs:258-267). -/
def same (g : Gauge α) : Gauge α where
  known := g.known
  unknown x := call id (g.unknown x)

/-- `Padded<T, N>`: src/schema.rs:219-232. -/
def padded (n : Nat) (g : Gauge α) : Gauge α where
  known := match g.known with
    | some m => some (m + n)
    | none => none
  unknown x := call (· + n) (g.unknown x)

/-- `Sequence<T>` (src/seq/mod.rs:213-219) and `LimSeq<T, N>` (src/seq/lim.rs:279-288). -/
def seq (g : Gauge α) : Gauge (List α) where
  known := none
  unknown xs := call id (total g.estimate xs)

/-- `FixSeq<T, N>`: src/seq/fix.rs:256-268. -/
def fixSeq (n : Nat) (g : Gauge α) : Gauge (List α) where
  known := match g.known with
    | some m => some (n * m)
    | none => none
  unknown xs := call id (total g.unknown xs)

end Gauge

/-- The arms of a `data!` enum: src/adt.rs:367-378. -/
structure VGauge (β : Type) where
  unknown : TagWidth → β → Nat × Nat

namespace VGauge

def nil : VGauge Empty where
  unknown _ x := nomatch x

def cons {α β : Type} (g : Gauge α) (v : VGauge β) : VGauge (α ⊕ β) where
  unknown w x := match x with
    | .inl x => (w.len + (g.estimate x).1, (g.estimate x).2)
    | .inr y => v.unknown w y

end VGauge

/-- The fields of a record: estimable_derive/src/lib.rs:75-170. -/
structure FGauge (β : Type) where
  known : Option Nat
  unknown : β → Nat × Nat

namespace FGauge

def nil : FGauge Unit where
  known := some 0
  unknown _ := (0, 0)

def cons {α β : Type} (g : Gauge α) (f : FGauge β) : FGauge (α × β) where
  known := match g.known, f.known with
    | some m, some n => some (m + n)
    | _, _ => none
  unknown x := ((g.unknown x.1).1 + (f.unknown x.2).1, (g.unknown x.1).2 + (f.unknown x.2).2)

end FGauge

namespace Gauge

/-- `data!`: src/adt.rs:367-378. -/
def data {β : Type} (w : TagWidth) (v : VGauge β) : Gauge β where
  known := none
  unknown x := call id (v.unknown w x)

/-- A record with derived `Estimable`. -/
def record {β : Type} (f : FGauge β) : Gauge β where
  known := f.known
  unknown x := call id (f.unknown x)

end Gauge

mutual
/-- `Estimable` as the library and its macros provide it for the type, with a counter. -/
noncomputable def Schema.gauge : (s : Schema) → Gauge s.Val
  | .unit => .leaf Codec.unit
  | .bool => .leaf Codec.bool
  | .int t => .leaf (Codec.int t)
  | .f64 => .leaf Codec.f64
  | .rangedInt t min max => .leaf (Codec.rangedInt t min max)
  | .rangedFloat min max => .leaf (Codec.rangedFloat min max)
  | .zarithN => .leaf Codec.zarithN
  | .zarithZ => .leaf Codec.zarithZ
  | .bytes => .leaf Codec.bytes
  | .vecU8 => .leaf Codec.vecU8
  | .string => .leaf Codec.string
  | .fixedBytes n => .leaf (Codec.fixedBytes n)
  | .fixedString n => .leaf (Codec.fixedString n)
  | .option s => .option s.gauge
  | .nullable s => .nullable s.gauge
  | .dynamic S s => .dynamic S s.gauge
  | .vpadded _ s => .same s.gauge
  | .padded n s => .padded n s.gauge
  | .seq s => .seq s.gauge
  | .fixSeq n s => .fixSeq n s.gauge
  | .limSeq _ s => .seq s.gauge
  | .autobox s => .same s.gauge
  | .hole _ => .leaf Codec.hole
  | .cstyle w tags => .leaf (Codec.cstyle w tags)
  | .data w vs => .data w vs.gauge
  | .record fs => .record fs.gauge
noncomputable def Variants.gauge : (vs : Variants) → VGauge vs.Val
  | .nil => .nil
  | .cons _ s vs => .cons s.gauge vs.gauge
noncomputable def Fields.gauge : (fs : Fields) → FGauge fs.Val
  | .nil => .nil
  | .cons s fs => .cons s.gauge fs.gauge
end

/-- The target, and a counter next to it: pushing `n` bytes adds `cost n`. -/
def TargetOps.costed {τ : Type} (cost : Nat → Nat) (T : TargetOps τ) : TargetOps (τ × Nat) where
  create := (T.create, 0)
  anticipate n t := (T.anticipate n t.1, t.2)
  pushOne b t := ((T.pushOne b t.1).1, ((T.pushOne b t.1).2, t.2 + cost 1))
  pushMany a t := ((T.pushMany a t.1).1, ((T.pushMany a t.1).2, t.2 + cost a.length))
  pushAll a t := ((T.pushAll a t.1).1, ((T.pushAll a t.1).2, t.2 + cost a.length))
  resolve t := (T.resolve t.1, t.2)

/-- `Encode` for a type, with a counter. -/
structure Costed (α : Type) : Type 1 where
  write : {τ : Type} → TargetOps τ → α → W (τ × Nat)

namespace Costed

variable {α : Type} (cost : Nat → Nat)

/-- Types that write in one go: as their codec. -/
def leaf (c : Codec α) : Costed α where
  write T x := c.write (T.costed cost) x

/-- src/conv/mod.rs:159-161, 178-192 `EncodeLength::enc_len`, with the counter before and after; a call of `unknown` counts `look`. -/
def encLen (look : Nat) (cfg : Cfg) (g : Gauge α) (m : Costed α) (x : α) (n : Nat) : Option (Nat × Nat) :=
  if cfg.encLenOverride then some ((g.estimate x).1, n + look * (g.estimate x).2)
  else match m.write sinkTarget x (sinkTarget.create, n) with
    | some (l, t) => some (l, t.2)
    | none => none

/-- `Option<T>`: src/conv/mod.rs:411-428. -/
def option (m : Costed α) : Costed (Option α) where
  write T x :=
    W.add
      (match x with
        | some val => W.add (W.push ((T.costed cost).pushOne 0xff)) (m.write T val)
        | none => W.push ((T.costed cost).pushOne 0x00))
      (W.resolveZero (T.costed cost))

/-- `Nullable<T>`: src/schema.rs:313-349. -/
def nullable (m : Costed α) : Costed (Option α) where
  write T x := match x with
    | some x => W.add (m.write T x) (W.resolveZero (T.costed cost))
    | none => W.resolveZero (T.costed cost)

/-- `Dynamic<S, T>`: src/dynamic.rs:371-387. -/
def dynamic (look : Nat) (cfg : Cfg) (S : LenPref) (g : Gauge α) (m : Costed α) : Costed α where
  write T x := fun t =>
    match encLen look cfg g m x t.2 with
    | none => none
    | some (l, n) =>
      if l ≤ S.maxLen then
        W.add (S.write (T.costed cost) l) (W.add (m.write T x) (W.resolveZero (T.costed cost)))
          ((T.costed cost).anticipate (l + S.len) (t.1, n))
      else none

/-- `VPadded<T, N>` (src/dynamic.rs:457-490) and `AutoBox<T>` (src/autobox.rs:246-252). -/
def same (m : Costed α) : Costed α where
  write T x := m.write T x

/-- `Padded<T, N>`: src/schema.rs:181-232. -/
def padded (n : Nat) (m : Costed α) : Costed α where
  write T x := W.add (W.add (m.write T x) (W.push ((T.costed cost).pushMany (List.replicate n 0)))) (W.resolveZero (T.costed cost))

/-- `iter().map(|x| x.write_to(buf)).sum()` -/
def writeList (m : Costed α) {τ : Type} (T : TargetOps τ) : List α → W (τ × Nat)
  | [] => W.zero
  | x :: xs => W.add (m.write T x) (writeList m T xs)

/-- `Sequence<T>` (src/seq/mod.rs:213-237), `FixSeq<T, N>` (src/seq/fix.rs:256-297), `LimSeq<T, N>` (src/seq/lim.rs:279-308). -/
def seq (m : Costed α) : Costed (List α) where
  write T xs := W.add (writeList m T xs) (W.resolveZero (T.costed cost))

end Costed

/-- The arms of a `data!` enum: src/adt.rs:355-365. -/
structure VCosted (β : Type) : Type 1 where
  write : (w : TagWidth) → {τ : Type} → TargetOps τ → β → W (τ × Nat)

/-- The fields of a record: encode_derive/src/lib.rs:22-60. -/
structure FCosted (β : Type) : Type 1 where
  write : {τ : Type} → TargetOps τ → β → W (τ × Nat)

namespace VCosted

def nil : VCosted Empty where
  write _ _ _ x := nomatch x

def cons {α β : Type} (cost : Nat → Nat) (tag : Nat) (m : Costed α) (v : VCosted β) : VCosted (α ⊕ β) where
  write w _ T x := match x with
    | .inl x => W.add (w.write (T.costed cost) tag) (W.add (m.write T x) (W.resolveZero (T.costed cost)))
    | .inr y => v.write w T y

end VCosted

namespace FCosted

def nil : FCosted Unit where
  write _ _ := W.zero

def cons {α β : Type} (m : Costed α) (f : FCosted β) : FCosted (α × β) where
  write T x := W.add (m.write T x.1) (f.write T x.2)

end FCosted

namespace Costed

/-- `data!`: src/adt.rs:355-365. -/
def data {β : Type} (w : TagWidth) (v : VCosted β) : Costed β where
  write T x := v.write w T x

/-- A record with derived `Encode`. -/
def record {β : Type} (cost : Nat → Nat) (f : FCosted β) : Costed β where
  write T x := W.add (f.write T x) (W.resolveZero (T.costed cost))

end Costed

mutual
/-- The code the library and its macros provide for the type, with a counter. -/
noncomputable def Schema.costed (cost : Nat → Nat) (look : Nat) (cfg : Cfg) : (s : Schema) → Costed s.Val
  | .unit => .leaf cost Codec.unit
  | .bool => .leaf cost Codec.bool
  | .int t => .leaf cost (Codec.int t)
  | .f64 => .leaf cost Codec.f64
  | .rangedInt t min max => .leaf cost (Codec.rangedInt t min max)
  | .rangedFloat min max => .leaf cost (Codec.rangedFloat min max)
  | .zarithN => .leaf cost Codec.zarithN
  | .zarithZ => .leaf cost Codec.zarithZ
  | .bytes => .leaf cost Codec.bytes
  | .vecU8 => .leaf cost Codec.vecU8
  | .string => .leaf cost Codec.string
  | .fixedBytes n => .leaf cost (Codec.fixedBytes n)
  | .fixedString n => .leaf cost (Codec.fixedString n)
  | .option s => .option cost (s.costed cost look cfg)
  | .nullable s => .nullable cost (s.costed cost look cfg)
  | .dynamic S s => .dynamic cost look cfg S s.gauge (s.costed cost look cfg)
  | .vpadded _ s => .same (s.costed cost look cfg)
  | .padded n s => .padded cost n (s.costed cost look cfg)
  | .seq s => .seq cost (s.costed cost look cfg)
  | .fixSeq _ s => .seq cost (s.costed cost look cfg)
  | .limSeq _ s => .seq cost (s.costed cost look cfg)
  | .autobox s => .same (s.costed cost look cfg)
  | .hole _ => .leaf cost Codec.hole
  | .cstyle w tags => .leaf cost (Codec.cstyle w tags)
  | .data w vs => .data w (vs.costed cost look cfg)
  | .record fs => .record cost (fs.costed cost look cfg)
noncomputable def Variants.costed (cost : Nat → Nat) (look : Nat) (cfg : Cfg) : (vs : Variants) → VCosted vs.Val
  | .nil => .nil
  | .cons tag s vs => .cons cost tag (s.costed cost look cfg) (vs.costed cost look cfg)
noncomputable def Fields.costed (cost : Nat → Nat) (look : Nat) (cfg : Cfg) : (fs : Fields) → FCosted fs.Val
  | .nil => .nil
  | .cons s fs => .cons (s.costed cost look cfg) (fs.costed cost look cfg)
end

end Verif
