import Verif.Lemmas.RecDebug
import Verif.Props.Debug
import Verif.Props.Recursive
/-
C75 for recursive types: printing their values for debugging.
-/
namespace Verif.Props
open Codec

variable (d : Decls) {i : Nat} (cfg : Cfg) (W : Printing)

/-- C75: a value of a recursive type is printed as its definition says, recursive parts as values of their types. -/
theorem C75_recursive_unrolls (n : Nat) (x : (d.unfold (n + 1) i).Val) :
    d.debug cfg W (d.val (n + 1) x) = (d.body i).debugIn cfg W (fun _ y => d.debug cfg W (d.val n y)) x := rfl

mutual
/-- No arm of an enum is a recursive mention without a box or sequence around it (Rust needs one). -/
def BoxedArms : Schema → Bool
  | .option s | .nullable s | .dynamic _ s | .vpadded _ s | .padded _ s | .seq s | .fixSeq _ s | .limSeq _ s | .autobox s => BoxedArms s
  | .data _ vs => VBoxedArms vs
  | .record fs => FBoxedArms fs
  | .unit | .bool | .int _ | .f64 | .rangedInt _ _ _ | .rangedFloat _ _ | .zarithN | .zarithZ | .bytes | .vecU8
  | .string | .fixedBytes _ | .fixedString _ | .hole _ | .cstyle _ _ => true
def VBoxedArms : Variants → Bool
  | .nil => true
  | .cons _ (.hole _) _ => false
  | .cons _ s vs => BoxedArms s && VBoxedArms vs
def FBoxedArms : Fields → Bool
  | .nil => true
  | .cons s fs => BoxedArms s && FBoxedArms fs
end

section
variable {ρ : Nat → Schema} {W : Printing} {cfg : Cfg} {p : ∀ i, (ρ i).Val → Option Text}

mutual
theorem debugIn_fill (hr : ∀ fs, W.record (Fields.fill ρ fs) = W.record fs) (ha : ∀ vs, W.arm (Variants.fill ρ vs) = W.arm vs)
    (h : ∀ i x, p i x = (ρ i).debug cfg W x) : ∀ (s : Schema) (x : (s.fill ρ).Val), BoxedArms s = true →
      s.debugIn cfg W p x = (s.fill ρ).debug cfg W x
  | .unit, _, _ | .bool, _, _ | .int _, _, _ | .f64, _, _ | .rangedInt _ _ _, _, _ | .rangedFloat _ _, _, _ | .zarithN, _, _
  | .zarithZ, _, _ | .bytes, _, _ | .vecU8, _, _ | .string, _, _ | .fixedBytes _, _, _ | .fixedString _, _, _
  | .cstyle _ _, _, _ => rfl
  | .option s, x, hb => congrFun (congrArg DebugOf.option (funext fun y => debugIn_fill hr ha h s y hb)) x
  | .nullable s, x, hb => congrArg (Option.map _) (congrFun (congrArg DebugOf.option (funext fun y => debugIn_fill hr ha h s y hb)) x)
  | .dynamic S s, x, hb => congrArg (DebugOf.dynamic S _) (debugIn_fill hr ha h s x hb)
  | .vpadded _ s, x, hb => debugIn_fill hr ha h s x hb
  | .padded _ s, x, hb => congrArg (Option.map _) (debugIn_fill hr ha h s x hb)
  | .seq s, x, hb => congrArg (Option.map _) (congrFun (congrArg DebugOf.list (funext fun y => debugIn_fill hr ha h s y hb)) x)
  | .fixSeq _ s, x, hb => congrArg (Option.map _) (congrFun (congrArg DebugOf.list (funext fun y => debugIn_fill hr ha h s y hb)) x)
  | .limSeq _ s, x, hb => congrArg (Option.map _) (congrFun (congrArg DebugOf.list (funext fun y => debugIn_fill hr ha h s y hb)) x)
  | .autobox s, x, hb => debugIn_fill hr ha h s x hb
  | .hole i, x, _ => h i x
  | .data _ vs, x, hb => congrArg (Option.map _) (vdebugIn_fill hr ha h vs vs 0 x hb)
  | .record fs, x, hb => by
    show Option.map (DebugOf.struct (W.record fs)) (fs.debugIn cfg W p x) =
      Option.map (DebugOf.struct (W.record (fs.fill ρ))) ((fs.fill ρ).debug cfg W x)
    rw [hr, fdebugIn_fill hr ha h fs x hb]
theorem vdebugIn_fill (hr : ∀ fs, W.record (Fields.fill ρ fs) = W.record fs) (ha : ∀ vs, W.arm (Variants.fill ρ vs) = W.arm vs)
    (h : ∀ i x, p i x = (ρ i).debug cfg W x) : ∀ (vs whole : Variants) (i : Nat) (x : (vs.fill ρ).Val), VBoxedArms vs = true →
      vs.debugIn cfg W p whole i x = (vs.fill ρ).debug cfg W (whole.fill ρ) i x
  | .nil, _, _, x, _ => nomatch x
  | .cons tag s vs, whole, i, .inl y, hb => by
    refine (Variants.debugIn_inl cfg W p tag s vs whole i y).trans (.trans ?_
      (Variants.debug_inl cfg W tag (s.fill ρ) (vs.fill ρ) (whole.fill ρ) i y).symm)
    rw [ha]
    refine congrArg (Option.map _) ?_
    cases s
    case record fs => exact fdebugIn_fill hr ha h fs y (Bool.and_eq_true_iff.mp hb).1
    case hole => cases hb
    all_goals exact congrArg (Option.map fun t => [t]) (debugIn_fill hr ha h _ y (Bool.and_eq_true_iff.mp hb).1)
  | .cons tag s vs, whole, i, .inr y, hb => by
    refine (Variants.debugIn_inr cfg W p tag s vs whole i y).trans (.trans ?_
      (Variants.debug_inr cfg W tag (s.fill ρ) (vs.fill ρ) (whole.fill ρ) i y).symm)
    refine vdebugIn_fill hr ha h vs whole (i + 1) y ?_
    cases s
    case hole => cases hb
    all_goals exact (Bool.and_eq_true_iff.mp hb).2
theorem fdebugIn_fill (hr : ∀ fs, W.record (Fields.fill ρ fs) = W.record fs) (ha : ∀ vs, W.arm (Variants.fill ρ vs) = W.arm vs)
    (h : ∀ i x, p i x = (ρ i).debug cfg W x) : ∀ (fs : Fields) (x : (fs.fill ρ).Val), FBoxedArms fs = true →
      fs.debugIn cfg W p x = (fs.fill ρ).debug cfg W x
  | .nil, _, _ => rfl
  | .cons s fs, (x, y), hb => by
    show (match s.debugIn cfg W p x with
      | none => none
      | some t => (fs.debugIn cfg W p y).map (t :: ·)) = _
    rw [debugIn_fill hr ha h s x (Bool.and_eq_true_iff.mp hb).1, fdebugIn_fill hr ha h fs y (Bool.and_eq_true_iff.mp hb).2]
    rfl
end
end

/-- C75: a value of a recursive type is printed like a value of any unfolding that has it, if unfolding does not change the
names of structs. -/
theorem C75_recursive_unfoldings (hr : ∀ ρ fs, W.record (Fields.fill ρ fs) = W.record fs)
    (ha : ∀ ρ vs, W.arm (Variants.fill ρ vs) = W.arm vs) (hb : ∀ j, BoxedArms (d.body j) = true) (n : Nat) :
    ∀ {i : Nat} (x : (d.unfold n i).Val), d.debug cfg W (d.val n x) = (d.unfold n i).debug cfg W x := by
  induction n with
  | zero => exact fun x => nomatch x
  | succ n ih => exact fun x => debugIn_fill (hr _) (ha _) (fun j y => ih y) _ x (hb _)

/-- C75: `{:?}` panics exactly if lengths are determined by encoding and somewhere inside is a `Dynamic` whose contents
cannot be encoded; also for recursive types. -/
theorem C75_recursive_exact (n : Nat) (x : (d.unfold n i).Val) : d.debug cfg W (d.val n x) = none ↔
    cfg.encLenOverride = false ∧ (d.unfold n i).someDynamic (fun t y => (t.codec cfg).toBytes y = none) x := by
  rw [d.debug_val, d.debugAt_none, ← Schema.debug_none cfg W, C75_exact]

/-- C75: values of recursive types that can be encoded can be printed. -/
theorem C75_recursive_encodable (a : d.Val i) (h : (d.codec cfg i).toBytes a ≠ none) : d.debug cfg W a ≠ none := by
  obtain ⟨n, x, rfl⟩ := d.exists_val a
  have := C75_encodable cfg W (d.unfold n i) x h
  rwa [ne_eq, d.debug_val, d.debugAt_none, ← Schema.debug_none cfg W]

/-- C75: with estimated lengths every value of a recursive type can be printed. -/
theorem C75_recursive_override (h : cfg.encLenOverride = true) (a : d.Val i) : d.debug cfg W a ≠ none := by
  obtain ⟨n, x, rfl⟩ := d.exists_val a
  intro hd
  have := ((C75_recursive_exact d cfg W n x).mp hd).1
  rw [h] at this
  cases this

/-- C75: the text of a value of a recursive type is the same in all builds, for values that can be encoded and hold no
`N` with value 0 under a length prefix. -/
theorem C75_recursive_builds (cfg' : Cfg) (a : d.Val i) (he : d.PrefixOk a) (h : (d.codec cfg i).toBytes a ≠ none) :
    d.debug cfg W a = d.debug cfg' W a := by
  obtain ⟨n, x, rfl, hv, he⟩ := he
  rw [rec_toBytes, toBytes_wire (.inr ⟨hv, he⟩)] at h
  exact d.debugAt_builds cfg W cfg' n i x hv he (Option.ne_none_iff_exists'.mp h)

/-- C75: different values of a recursive type are printed differently, where no doubles are involved and the names in the
program are distinct names. -/
theorem C75_recursive_identifies (hW : W.Proper) (hf : ∀ j, (d.body j).floatFree = true) (a b : d.Val i)
    (ha : d.debug cfg W a ≠ none) (h : d.debug cfg W a = d.debug cfg W b) : a = b := by
  obtain ⟨n, x, y, rfl, rfl⟩ : ∃ n x y, a = d.val n x ∧ b = d.val n y := by
    obtain ⟨n, x, y, _, h1, h2, _⟩ := d.exists_three a b b
    exact ⟨n, x, y, h1, h2⟩
  obtain ⟨t, ht⟩ := Option.ne_none_iff_exists'.mp ha
  exact congrArg (d.val n) ((d.debugAt_readable cfg W hW hf n i).reads x y t t [] [] ht (h.symm.trans ht) rfl rfl rfl).1

/-- C75: what any parser decodes can be printed, also for recursive types, unless there is text under a length prefix that
has no room for three times the input. -/
theorem C75_recursive_decoded_partial (hz : ∀ j, (d.body j).sized = true) (k : Backend) (v : Bytes) (vs : List Bytes)
    (st st' : k.State) (hs : k.Holds v vs st) (a : d.Val i) (he : (d.codec cfg i).parse (k.ops cfg.prof) st = .ok a st')
    (hx : (∀ j, (d.body j).textFree = true) ∨ ∀ j, (d.body j).roomy (3 * v.length) = true) : d.debug cfg W a ≠ none := by
  by_cases hcfg : cfg.encLenOverride = false
  · obtain ⟨_, b, _, h, _⟩ := C52_reencode_partial cfg d hcfg hz k v vs st st' hs a he hx
    exact C75_recursive_encodable d cfg W a (by rw [h]; exact nofun)
  · exact C75_recursive_override d cfg W (by simpa using hcfg) a

/-! ### examples -/

private def names : Printing where
  float _ := text! "1.5"
  str cs := cs
  variant _ _ := text! "V"
  record _ := .tuple text! "U8Seq"
  arm _ i := .tuple ('A' :: decimal i)

example : u8Seq.debug ⟨.debug, false, true, true⟩ names u8Seq57 = some text! "U8Seq(5, Some(U8Seq(7, None)))" := by
  with_unfolding_all rfl

/-- `[[-3], []]` -/
private def nested : exprs.Val 0 := exprs.val 3 (.inr (.inr (.inl [
  (.inr (.inr (.inl [(.inl (-3 : Int) : Int ⊕ List Char ⊕ List Empty ⊕ Empty)])) :
    Int ⊕ List Char ⊕ List (Int ⊕ List Char ⊕ List Empty ⊕ Empty) ⊕ Empty),
  .inr (.inr (.inl []))])) :
  Int ⊕ List Char ⊕ List (Int ⊕ List Char ⊕ List (Int ⊕ List Char ⊕ List Empty ⊕ Empty) ⊕ Empty) ⊕ Empty)

example : exprs.debug ⟨.debug, false, true, true⟩ names nested =
    some text! "#A2([12u30 bytes|Sequence([#A2([2u30 bytes|Sequence([#A0(ℤ(-3))])]), #A2([0u30 bytes|Sequence([])])])])" := by
  with_unfolding_all rfl

example : ∀ j, (exprs.body j).floatFree = true ∧ BoxedArms (exprs.body j) = true := fun _ => ⟨rfl, rfl⟩
example : (∀ ρ fs, names.record (Fields.fill ρ fs) = names.record fs) ∧ ∀ ρ vs, names.arm (Variants.fill ρ vs) = names.arm vs :=
  ⟨fun _ _ => rfl, fun _ _ => rfl⟩

end Verif.Props
