import Verif.Effort
import Verif.Spec.Effort
import Verif.RecCodec
import Verif.Lemmas.Schema
/-
The counters of Verif/Effort.lean: they change nothing else, and they grow by `Schema.calls` and `Schema.work`.
-/
namespace Verif

/-! ### estimates -/

/-- The code with the counter estimates as the codec does, and counts `q x`. -/
structure Gauge.Agrees {α : Type} (g : Gauge α) (c : Codec α) (w : Option Nat) (q : α → Nat) : Prop where
  width : c.known = w
  known : g.known = w
  unknown : ∀ x, g.unknown x = (c.unknown x, q x)

namespace Gauge

variable {α : Type} {g : Gauge α} {c : Codec α} {w : Option Nat} {q : α → Nat}

theorem Agrees.estimate (h : g.Agrees c w q) (x : α) : g.estimate x = (c.estimate x, unlessKnown w (q x)) := by
  unfold Gauge.estimate Codec.estimate
  rw [h.known, h.width, h.unknown]
  cases w <;> rfl

theorem total_eq {f : α → Nat × Nat} {u v : α → Nat} (h : ∀ x, f x = (u x, v x)) : ∀ xs, total f xs = ((xs.map u).sum, (xs.map v).sum)
  | [] => rfl
  | x :: xs => by simp only [total, h x, total_eq h xs, List.map_cons, List.sum_cons]

end Gauge

mutual
theorem Schema.gauge_eq (cfg : Cfg) : ∀ s : Schema, s.gauge.Agrees (s.codec cfg) s.width s.calls
  | .unit | .bool | .int _ | .f64 | .rangedInt _ _ _ | .rangedFloat _ _ | .zarithN | .zarithZ | .bytes | .vecU8
  | .string | .fixedBytes _ | .fixedString _ | .cstyle _ _ => ⟨rfl, rfl, fun _ => rfl⟩
  | .hole _ => ⟨rfl, rfl, fun x => nomatch (x : Empty)⟩
  | .option s => by
    have h := Schema.gauge_eq cfg s
    have hk : s.gauge.known = (s.codec cfg).known := h.known.trans h.width.symm
    refine ⟨(Schema.option s).known_eq cfg, ?_, fun x => ?_⟩
    · refine Eq.trans ?_ ((Schema.option s).known_eq cfg)
      simp only [Schema.gauge, Gauge.option, Schema.codec, Codec.option, hk]
      rcases (s.codec cfg).known with _ | _ | _ <;> rfl
    · rcases (x : Option s.Val) with _ | x
      · rfl
      · exact congrArg (Gauge.call (1 + ·)) (h.estimate x)
  | .nullable s => by
    have h := Schema.gauge_eq cfg s
    have hk : s.gauge.known = (s.codec cfg).known := h.known.trans h.width.symm
    refine ⟨(Schema.nullable s).known_eq cfg, ?_, fun x => ?_⟩
    · refine Eq.trans ?_ ((Schema.nullable s).known_eq cfg)
      simp only [Schema.gauge, Gauge.nullable, Schema.codec, Codec.nullable, hk]
      rcases (s.codec cfg).known with _ | _ | _ <;> rfl
    · rcases (x : Option s.Val) with _ | x
      · rfl
      · exact congrArg (Gauge.call id) (h.estimate x)
  | .dynamic S s => by
    have h := Schema.gauge_eq cfg s
    have hk : s.gauge.known = (s.codec cfg).known := h.known.trans h.width.symm
    refine ⟨(Schema.dynamic S s).known_eq cfg, ?_, fun x => congrArg (Gauge.call (S.len + ·)) (h.unknown x)⟩
    refine Eq.trans ?_ ((Schema.dynamic S s).known_eq cfg)
    simp only [Schema.gauge, Gauge.dynamic, Schema.codec, Codec.dynamic, hk]
    rcases (s.codec cfg).known with _ | _ | _ <;> rfl
  | .vpadded n s => by
    have h := Schema.gauge_eq cfg s
    exact ⟨(Schema.vpadded n s).known_eq cfg, h.known, fun x => congrArg (Gauge.call id) (h.unknown x)⟩
  | .padded n s => by
    have h := Schema.gauge_eq cfg s
    have hk : s.gauge.known = (s.codec cfg).known := h.known.trans h.width.symm
    refine ⟨(Schema.padded n s).known_eq cfg, ?_, fun x => congrArg (Gauge.call (· + n)) (h.unknown x)⟩
    refine Eq.trans ?_ ((Schema.padded n s).known_eq cfg)
    simp only [Schema.gauge, Gauge.padded, Schema.codec, Codec.padded, hk]
    rcases (s.codec cfg).known with _ | _ | _ <;> rfl
  | .seq s => ⟨rfl, rfl, fun xs => congrArg (Gauge.call id) (Gauge.total_eq (Schema.gauge_eq cfg s).estimate xs)⟩
  | .fixSeq n s => by
    have h := Schema.gauge_eq cfg s
    have hk : s.gauge.known = (s.codec cfg).known := h.known.trans h.width.symm
    refine ⟨(Schema.fixSeq n s).known_eq cfg, ?_, fun xs => congrArg (Gauge.call id) (Gauge.total_eq h.unknown xs)⟩
    refine Eq.trans ?_ ((Schema.fixSeq n s).known_eq cfg)
    simp only [Schema.gauge, Gauge.fixSeq, Schema.codec, Codec.fixSeq, hk]
    rcases (s.codec cfg).known with _ | _ | _ <;> rfl
  | .limSeq _ s => ⟨rfl, rfl, fun xs => congrArg (Gauge.call id) (Gauge.total_eq (Schema.gauge_eq cfg s).estimate xs)⟩
  | .autobox s => by
    have h := Schema.gauge_eq cfg s
    exact ⟨(Schema.autobox s).known_eq cfg, h.known, fun x => congrArg (Gauge.call id) (h.unknown x)⟩
  | .data w vs => ⟨rfl, rfl, fun x => congrArg (Gauge.call id) (Variants.gauge_eq cfg vs w x)⟩
  | .record fs => by
    have h := Fields.gauge_eq cfg fs
    exact ⟨(Schema.record fs).known_eq cfg, h.1.trans ((Schema.record fs).known_eq cfg), fun x => congrArg (Gauge.call id) (h.2 x)⟩
theorem Variants.gauge_eq (cfg : Cfg) : ∀ (vs : Variants) (w : TagWidth) (x : vs.Val),
    vs.gauge.unknown w x = ((vs.codec cfg).unknown w x, vs.calls x)
  | .nil, _, x => nomatch (x : Empty)
  | .cons _ s vs, w, x => by
    rcases (x : s.Val ⊕ vs.Val) with x | x
    · exact congrArg (fun r : Nat × Nat => (w.len + r.1, r.2)) ((Schema.gauge_eq cfg s).estimate x)
    · exact Variants.gauge_eq cfg vs w x
theorem Fields.gauge_eq (cfg : Cfg) : ∀ fs : Fields, fs.gauge.known = (fs.codec cfg).known ∧
    ∀ x, fs.gauge.unknown x = ((fs.codec cfg).unknown x, fs.calls x)
  | .nil => ⟨rfl, fun _ => rfl⟩
  | .cons s fs => by
    have h := Schema.gauge_eq cfg s
    have h' := Fields.gauge_eq cfg fs
    have hk : s.gauge.known = (s.codec cfg).known := h.known.trans h.width.symm
    refine ⟨?_, fun x => ?_⟩
    · simp only [Fields.gauge, FGauge.cons, Fields.codec, FCodec.cons, hk, h'.1]
      rcases (s.codec cfg).known with _ | _ <;> rcases (fs.codec cfg).known with _ | _ <;> rfl
    · have e1 := h.unknown x.1
      have e2 := h'.2 x.2
      show (_, _) = (_, _)
      rw [e1, e2]
      rfl
end

/-! ### pushes -/

/-- `w'` does what `w` does and adds `k` to the counter. -/
def Pays {τ : Type} (w' : W (τ × Nat)) (w : W τ) (k : Nat) : Prop :=
  ∀ t n, w' (t, n) = (w t).map fun r => (r.1, (r.2, n + k))

namespace Pays

variable {τ : Type} {w v : W τ} {w' v' : W (τ × Nat)} {j k : Nat} {cost : Nat → Nat} (T : TargetOps τ)

theorem cast (h : Pays w' w j) (e : j = k) : Pays w' w k := e ▸ h

theorem zero : Pays (W.zero : W (τ × Nat)) W.zero 0 := fun _ _ => rfl

theorem panic : Pays (W.panic : W (τ × Nat)) W.panic k := fun _ _ => rfl

theorem add (h : Pays w' w j) (hv : Pays v' v k) : Pays (W.add w' v') (W.add w v) (j + k) := fun t n => by
  simp only [W.add, h t n]
  cases w t with
  | none => rfl
  | some r =>
    simp only [Option.map, hv r.2 (n + j)]
    cases v r.2 with
    | none => rfl
    | some s => simp only [Option.map, Nat.add_assoc]

theorem resolve : Pays (W.resolveZero (T.costed cost)) (W.resolveZero T) 0 := fun _ _ => rfl

theorem pushOne (b : Byte) : Pays (W.push ((T.costed cost).pushOne b)) (W.push (T.pushOne b)) (cost 1) := fun _ _ => rfl

theorem pushMany (bs : Bytes) (h : bs.length = k) : Pays (W.push ((T.costed cost).pushMany bs)) (W.push (T.pushMany bs)) (cost k) :=
  fun _ _ => by subst h; rfl

theorem pushAll (bs : Bytes) (h : bs.length = k) : Pays (W.push ((T.costed cost).pushAll bs)) (W.push (T.pushAll bs)) (cost k) :=
  fun _ _ => by subst h; rfl

theorem pushed (bs : Bytes) (h : bs.length = k) :
    Pays (W.add (W.push ((T.costed cost).pushAll bs)) (W.resolveZero (T.costed cost)))
      (W.add (W.push (T.pushAll bs)) (W.resolveZero T)) (cost k) := (pushAll T bs h).add (resolve T)

end Pays

/-- The code with the counter does what the codec does, and counts `k x`. -/
def Costed.Counts {α : Type} (m : Costed α) (c : Codec α) (k : α → Nat) : Prop :=
  ∀ {τ : Type} (T : TargetOps τ) (x : α), Pays (m.write T x) (c.write T x) (k x)

def VCosted.Counts {α : Type} (cost : Nat → Nat) (m : VCosted α) (c : VCodec α) (k : α → Nat) : Prop :=
  ∀ (w : TagWidth) {τ : Type} (T : TargetOps τ) (x : α), Pays (m.write w T x) (c.write w T x) (cost w.len + k x)

def FCosted.Counts {α : Type} (m : FCosted α) (c : FCodec α) (k : α → Nat) : Prop :=
  ∀ {τ : Type} (T : TargetOps τ) (x : α), Pays (m.write T x) (c.write T x) (k x)

namespace Costed

variable {α : Type} {cost : Nat → Nat} {m : Costed α} {c : Codec α} {k : α → Nat} {g : Gauge α} {look : Nat} {w : Option Nat} {q : α → Nat}

theorem counts_int (t : IntTy) : (leaf cost (Codec.int t)).Counts (Codec.int t) fun _ => cost t.len :=
  fun T x => Pays.pushed T _ (toBe_length _ _)

theorem counts_rangedInt (t : IntTy) (min max : Int) :
    (leaf cost (Codec.rangedInt t min max)).Counts (Codec.rangedInt t min max) fun _ => cost t.len := fun T x => by
  simp only [leaf, Codec.rangedInt]
  cases RangedInt.toUnderlying t min max x with
  | none => exact Pays.panic
  | some y => exact (counts_int t T y).add (Pays.resolve T)

theorem counts_tag (w : TagWidth) {τ : Type} (T : TargetOps τ) (tag : Nat) :
    Pays (w.write (T.costed cost) tag) (w.write T tag) (cost w.len) := Pays.pushed T _ (toBe_length _ _)

theorem counts_prefix (S : LenPref) {τ : Type} (T : TargetOps τ) (l : Nat) :
    Pays (S.write (T.costed cost) l) (S.write T l) (cost S.len) := by
  cases S with
  | u8 =>
    simp only [LenPref.write]
    cases IntTy.tryFrom .u8 l with
    | none => exact Pays.panic
    | some x => exact counts_int .u8 T x
  | u16 =>
    simp only [LenPref.write]
    cases IntTy.tryFrom .u16 l with
    | none => exact Pays.panic
    | some x => exact counts_int .u16 T x
  | u30 =>
    simp only [LenPref.write]
    cases restrict l 0 LenPref.u30Max with
    | error e => exact Pays.panic
    | ok _ =>
      simp only
      cases IntTy.tryFrom .u32 l with
      | none => exact Pays.panic
      | some x => exact counts_rangedInt .u32 0 LenPref.u30Max T x

theorem counts_option (h : m.Counts c k) : (option cost m).Counts c.option fun o => cost 1 + o.elim 0 k := fun T x => by
  cases x with
  | none => exact (Pays.pushOne T _).add (Pays.resolve T)
  | some x => exact ((Pays.pushOne T _).add (h T x)).add (Pays.resolve T)

theorem counts_nullable (h : m.Counts c k) : (nullable cost m).Counts c.nullable fun o => o.elim 0 k := fun T x => by
  cases x with
  | none => exact Pays.resolve T
  | some x => exact (h T x).add (Pays.resolve T)

theorem encLen_eq (cfg : Cfg) (hg : g.Agrees c w q) (h : m.Counts c k) (x : α) (n : Nat) :
    encLen look cfg g m x n = (c.encLen cfg x).map fun l => (l, n + (if cfg.encLenOverride then look * unlessKnown w (q x) else k x)) := by
  unfold encLen Codec.encLen
  by_cases ho : cfg.encLenOverride = true
  · simp [ho, hg.estimate]
  · simp only [ho]
    rw [h sinkTarget x]
    cases c.write sinkTarget x sinkTarget.create <;> rfl

end Costed

/-- How often the contents of a `Dynamic` are written: once to measure them, unless estimates are trusted, and once more. -/
def Cfg.times (cfg : Cfg) : Nat := if cfg.encLenOverride then 1 else 2

/-- What is spent on a call of `unknown` when encoding: nothing if it is not made. -/
def Cfg.fee (cfg : Cfg) (look : Nat) : Nat := if cfg.encLenOverride then look else 0

namespace Costed

variable {α : Type} {cost : Nat → Nat} {m : Costed α} {c : Codec α} {k : α → Nat} {g : Gauge α} {look : Nat} {w : Option Nat} {q : α → Nat}

theorem counts_dynamic (cfg : Cfg) (S : LenPref) (hg : g.Agrees c w q) (h : m.Counts c k) :
    (dynamic cost look cfg S g m).Counts (Codec.dynamic cfg S c)
      fun x => cost S.len + cfg.fee look * unlessKnown w (q x) + cfg.times * k x :=
  fun T x t n => by
    simp only [dynamic, encLen_eq cfg hg h, Codec.dynamic]
    cases c.encLen cfg x with
    | none => rfl
    | some l =>
      simp only [Option.map_some]
      by_cases hl : l ≤ S.maxLen
      · simp only [hl, if_true]
        have hw := ((counts_prefix (cost := cost) S T l).add ((h T x).add (Pays.resolve (cost := cost) T)))
          (T.anticipate (l + S.len) t) (n + if cfg.encLenOverride then look * unlessKnown w (q x) else k x)
        refine (hw.trans ?_)
        congr 1
        funext r
        congr 2
        unfold Cfg.times Cfg.fee
        split <;> omega
      · simp only [hl, if_false]
        rfl

theorem counts_padded (cfg : Cfg) (n : Nat) (h : m.Counts c k) : (padded cost n m).Counts (c.padded cfg n) fun x => k x + cost n :=
  fun T x => ((h T x).add (Pays.pushMany T _ (List.length_replicate ..))).add (Pays.resolve T)

theorem counts_list (h : m.Counts c k) {τ : Type} (T : TargetOps τ) :
    ∀ xs, Pays (writeList m T xs) (c.writeList T xs) (xs.map k).sum
  | [] => Pays.zero
  | x :: xs => ((h T x).add (counts_list h T xs)).cast (by simp)

theorem counts_seq (h : m.Counts c k) : (seq cost m).Counts c.seq fun xs => (xs.map k).sum :=
  fun T xs => (counts_list h T xs).add (Pays.resolve T)

end Costed

mutual
theorem Schema.counts (cost : Nat → Nat) (look : Nat) (cfg : Cfg) : ∀ s : Schema, (s.costed cost look cfg).Counts (s.codec cfg) (s.work cost (cfg.fee look) cfg.times)
  | .unit => fun _ _ => Pays.zero
  | .bool => fun T _ => (Pays.pushOne T _).add (Pays.resolve T)
  | .int t => Costed.counts_int t
  | .f64 => fun T x => Costed.counts_int .u64 T x
  | .rangedInt t min max => Costed.counts_rangedInt t min max
  | .rangedFloat _ _ => fun T x => Costed.counts_int .u64 T x
  | .zarithN => fun T x => Pays.pushed T _ (congrArg List.length (serializeN_eq x))
  | .zarithZ => fun T x => Pays.pushed T _ (congrArg List.length (serializeZ_eq x))
  | .bytes => fun T _ => Pays.pushed T _ rfl
  | .vecU8 => fun T _ => Pays.pushed T _ rfl
  | .string => fun T _ => Pays.pushed T _ rfl
  | .fixedBytes _ => fun T x => (Pays.pushMany T _ x.2).add (Pays.resolve T)
  | .fixedString _ => fun T x => Pays.pushed T _ x.2
  | .option s => Costed.counts_option (s.counts cost look cfg)
  | .nullable s => Costed.counts_nullable (s.counts cost look cfg)
  | .dynamic S s => Costed.counts_dynamic cfg S (s.gauge_eq cfg) (s.counts cost look cfg)
  | .vpadded _ s => fun T x => s.counts cost look cfg T x
  | .padded n s => Costed.counts_padded cfg n (s.counts cost look cfg)
  | .seq s => Costed.counts_seq (s.counts cost look cfg)
  | .fixSeq _ s => fun T xs => Costed.counts_seq (s.counts cost look cfg) T xs
  | .limSeq _ s => fun T xs => Costed.counts_seq (s.counts cost look cfg) T xs
  | .autobox s => fun T x => s.counts cost look cfg T x
  | .hole _ => fun _ x => nomatch x
  | .cstyle w _ => fun T _ => Costed.counts_tag w T _
  | .data w vs => fun T x => vs.counts cost look cfg w T x
  | .record fs => fun T x => (fs.counts cost look cfg T x).add (Pays.resolve T)
theorem Variants.counts (cost : Nat → Nat) (look : Nat) (cfg : Cfg) : ∀ vs : Variants,
    VCosted.Counts cost (vs.costed cost look cfg) (vs.codec cfg) (vs.work cost (cfg.fee look) cfg.times)
  | .nil => fun _ _ _ x => nomatch x
  | .cons tag s vs => fun w _ T x => by
    rcases (x : s.Val ⊕ vs.Val) with x | x
    · exact (Costed.counts_tag w T tag).add ((s.counts cost look cfg T x).add (Pays.resolve T))
    · exact vs.counts cost look cfg w T x
theorem Fields.counts (cost : Nat → Nat) (look : Nat) (cfg : Cfg) : ∀ fs : Fields, (fs.costed cost look cfg).Counts (fs.codec cfg) (fs.work cost (cfg.fee look) cfg.times)
  | .nil => fun _ _ => Pays.zero
  | .cons s fs => fun T x => (s.counts cost look cfg T x.1).add (fs.counts cost look cfg T x.2)
end

theorem Pays.unique {τ : Type} {w : W τ} {v v' : W (τ × Nat)} {k : Nat} (h : Pays v w k) (h' : Pays v' w k) : v = v' :=
  funext fun t => (h t.1 t.2).trans (h' t.1 t.2).symm

end Verif
