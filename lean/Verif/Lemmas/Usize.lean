import Verif.Usize
import Verif.Spec.Debug
import Verif.Lemmas.Debug
import Verif.Lemmas.Derive
/-
Lemmas on counts of type `usize`.
-/
namespace Verif

/-- What is left of a count that may be too large: in debug builds a panic, in release builds the remainder. -/
def norm (p : Profile) {τ : Type} : Option (Nat × τ) → Option (Nat × τ)
  | none => none
  | some (n, t) => match p with
    | .debug => if n < usizeMod then some (n, t) else none
    | .release => some (n % usizeMod, t)

namespace Usize

open Derive (W.assoc W.zero_left)

variable {τ : Type} {p : Profile}

def Exact (p : Profile) (a' a : W τ) : Prop := ∀ t, a' t = norm p (a t)
def Near (p : Profile) (a' a : W τ) : Prop := ∀ t, norm p (a' t) = norm p (a t)

theorem pos : 0 < usizeMod := by decide

theorem norm_norm (o : Option (Nat × τ)) : norm p (norm p o) = norm p o := by
  cases o with
  | none => rfl
  | some q =>
    obtain ⟨n, t⟩ := q
    cases p with
    | debug =>
      by_cases h : n < usizeMod
      · simp [norm, h]
      · simp [norm, h]
    | release => simp [norm]

theorem Exact.near {a' a : W τ} (h : Exact p a' a) : Near p a' a := fun t => by rw [h t, norm_norm]

theorem Near.refl (a : W τ) : Near p a a := fun _ => rfl

theorem zero_exact : Exact p (W.zero : W τ) W.zero := fun t => by
  cases p <;> simp [W.zero, norm, pos, Nat.mod_eq_of_lt]

theorem resolve_exact (T : TargetOps τ) : Exact p (W.resolveZero T) (W.resolveZero T) := fun t => by
  cases p <;> simp [W.resolveZero, norm, pos, Nat.mod_eq_of_lt]

theorem panic_exact : Exact p (W.panic : W τ) W.panic := fun _ => rfl

theorem add_exact {a' a b' b : W τ} (ha : Near p a' a) (hb : Near p b' b) : Exact p (W.addU p a' b') (W.add a b) := by
  intro t
  have h1 := ha t
  simp only [W.addU, W.add]
  cases p with
  | debug =>
    rcases e1 : a t with _ | ⟨n, t1⟩ <;> rcases e2 : a' t with _ | ⟨n', t1'⟩ <;> rw [e1, e2] at h1
    · rfl
    · simp only [norm] at h1
      split at h1
      · cases h1
      · rename_i hn
        dsimp only
        rcases b' t1' with _ | ⟨m', t2'⟩
        · rfl
        · have : ¬ n' + m' < usizeMod := by omega
          simp [uadd, this, norm]
    · simp only [norm] at h1
      split at h1
      · cases h1
      · rename_i hn
        dsimp only
        rcases b t1 with _ | ⟨m, t2⟩
        · rfl
        · have : ¬ n + m < usizeMod := by omega
          simp [norm, this]
    · simp only [norm] at h1
      dsimp only
      by_cases hn : n < usizeMod
      · by_cases hn' : n' < usizeMod
        · simp only [hn, hn', if_true, Option.some.injEq, Prod.mk.injEq] at h1
          obtain ⟨rfl, rfl⟩ := h1
          have h2 := hb t1'
          rcases e3 : b t1' with _ | ⟨m, t2⟩ <;> rcases e4 : b' t1' with _ | ⟨m', t2'⟩ <;> rw [e3, e4] at h2
          · rfl
          · simp only [norm] at h2
            split at h2
            · cases h2
            · have : ¬ n' + m' < usizeMod := by omega
              simp [uadd, this, norm]
          · simp only [norm] at h2
            split at h2
            · cases h2
            · have : ¬ n' + m < usizeMod := by omega
              simp [this, norm]
          · simp only [norm] at h2
            by_cases hm : m < usizeMod <;> by_cases hm' : m' < usizeMod
            · simp only [hm, hm', if_true, Option.some.injEq, Prod.mk.injEq] at h2
              obtain ⟨rfl, rfl⟩ := h2
              by_cases hs : n' + m' < usizeMod <;> simp [uadd, hs, norm]
            · simp [hm, hm'] at h2
            · simp [hm, hm'] at h2
            · have h3 : ¬ n' + m' < usizeMod := by omega
              have h4 : ¬ n' + m < usizeMod := by omega
              simp [uadd, h3, h4, norm]
        · simp [hn, hn'] at h1
      · by_cases hn' : n' < usizeMod
        · simp [hn, hn'] at h1
        · have l : ∀ k : Nat, ¬ n + k < usizeMod := by omega
          have l' : ∀ k : Nat, ¬ n' + k < usizeMod := by omega
          rcases b t1 with _ | ⟨m, t2⟩ <;> rcases b' t1' with _ | ⟨m', t2'⟩ <;> simp [uadd, l, l', norm]
  | release =>
    rcases e1 : a t with _ | ⟨n, t1⟩ <;> rcases e2 : a' t with _ | ⟨n', t1'⟩ <;> rw [e1, e2] at h1 <;>
      simp only [norm, Option.some.injEq, Prod.mk.injEq, reduceCtorEq] at h1
    · rfl
    · obtain ⟨hn, rfl⟩ := h1
      dsimp only
      have h2 := hb t1'
      rcases e3 : b t1' with _ | ⟨m, t2⟩ <;> rcases e4 : b' t1' with _ | ⟨m', t2'⟩ <;> rw [e3, e4] at h2 <;>
        simp only [norm, Option.some.injEq, Prod.mk.injEq, reduceCtorEq] at h2
      · rfl
      · obtain ⟨hm, rfl⟩ := h2
        have : (n' + m') % usizeMod = (n + m) % usizeMod := by rw [Nat.add_mod, hn, hm, ← Nat.add_mod]
        by_cases hs : n' + m' < usizeMod
        · simp [uadd, hs, norm, ← this, Nat.mod_eq_of_lt hs]
        · simp [uadd, hs, norm, this]

theorem left_near {a' a : W τ} (ha : Near p a' a) {α : Type} {f' f : α → W τ} : (xs : List α) →
    (∀ x ∈ xs, Near p (f' x) (f x)) → Near p (W.leftU p a' (xs.map f')) (xs.foldl (fun acc x => W.add acc (f x)) a)
  | [], _ => ha
  | x :: xs, h => left_near (add_exact ha (h x (by simp))).near xs fun y hy => h y (by simp [hy])

theorem foldl_eq {α : Type} (c : Codec α) (T : TargetOps τ) : (xs : List α) → (a : W τ) →
    xs.foldl (fun acc x => W.add acc (c.write T x)) a = W.add a (c.writeList T xs)
  | [], a => by
    funext t
    simp only [List.foldl_nil, W.add, Codec.writeList, W.zero]
    cases a t with
    | none => rfl
    | some q => rfl
  | x :: xs, a => (foldl_eq c T xs _).trans (W.assoc _ _ _)

theorem writeList_near {α : Type} {m : Machine α} {c : Codec α} (T : TargetOps τ) (xs : List α)
    (h : ∀ x ∈ xs, Exact p (m.write T x) (c.write T x)) : Near p (Machine.writeList p m T xs) (c.writeList T xs) := by
  have := left_near (zero_exact (p := p)).near (f' := m.write T) (f := c.write T) xs fun x hx => (h x hx).near
  rw [foldl_eq, W.zero_left] at this
  exact this

attribute [local irreducible] W.addU W.add

/-! ### estimates -/

/-- An estimate is right unless it is too large; then it may be a panic in debug builds, and is right modulo `usizeMod` in
release builds. -/
structure Est (p : Profile) (a : Option Nat) (n : Nat) : Prop where
  fits : n < usizeMod → a = some n
  debug : p = .debug → a = none ∨ a = some n
  release : p = .release → ∃ m, a = some m ∧ m % usizeMod = n % usizeMod

theorem Est.some (n : Nat) : Est p (some n) n := ⟨fun _ => rfl, fun _ => .inr rfl, fun _ => ⟨n, rfl, rfl⟩⟩

theorem uadd_est (n m : Nat) : Est p (uadd p n m) (n + m) := by
  by_cases h : n + m < usizeMod
  · rw [uadd_of_lt h]; exact Est.some _
  · refine ⟨fun h' => absurd h' h, ?_, ?_⟩
    · rintro rfl; exact .inl (by simp [uadd, h])
    · rintro rfl; exact ⟨(n + m) % usizeMod, by simp [uadd, h], Nat.mod_mod _ _⟩

theorem Est.add {a b : Option Nat} {n m : Nat} (ha : Est p a n) (hb : Est p b m) : Est p (addN p a b) (n + m) := by
  refine ⟨fun h => ?_, fun hp => ?_, fun hp => ?_⟩
  · rw [ha.fits (by omega), hb.fits (by omega)]
    exact uadd_of_lt h
  · rcases ha.debug hp with rfl | rfl <;> rcases hb.debug hp with rfl | rfl <;> try exact .inl rfl
    exact (uadd_est n m).debug hp
  · obtain ⟨k, rfl, hk⟩ := ha.release hp
    obtain ⟨l, rfl, hl⟩ := hb.release hp
    obtain ⟨r, hr, e⟩ := (uadd_est (p := p) k l).release hp
    exact ⟨r, hr, by rw [e, Nat.add_mod, hk, hl, ← Nat.add_mod]⟩

theorem Est.left {α : Type} {f' : α → Option Nat} {f : α → Nat} : (xs : List α) → {a : Option Nat} → {n : Nat} →
    Est p a n → (∀ x ∈ xs, Est p (f' x) (f x)) → Est p (leftN p a (xs.map f')) (n + (xs.map f).sum)
  | [], _, _, h, _ => h
  | x :: xs, a, n, h, hx => by
    have := Est.left xs (h.add (hx x (by simp))) fun y hy => hx y (by simp [hy])
    simpa [leftN, Nat.add_assoc] using this

/-- The number of bits is no `usize`. -/
def Wide (n : Nat) : Prop := usizeMod ≤ bits n

theorem bits_mod {n : Nat} (h : ¬ Wide n) : bits n % usizeMod = bits n := Nat.mod_eq_of_lt (Nat.lt_of_not_le h)

/-- The code with and without bounded counts, for the values with `Q`. -/
structure Agrees {α : Type} (p : Profile) (m : Machine α) (c : Codec α) (Q : α → Prop) : Prop where
  known : m.known = c.known
  unknown : ∀ x, Q x → Est p (m.unknown x) (c.unknown x)

theorem Agrees.estimate {α : Type} {m : Machine α} {c : Codec α} {Q : α → Prop} (h : Agrees p m c Q) (x : α) (hx : Q x) :
    Est p (m.estimate x) (c.estimate x) := by
  simp only [Machine.estimate, Codec.estimate, h.known]
  cases c.known with
  | none => exact h.unknown x hx
  | some n => exact Est.some n

/-- … the same for the fields of a record. -/
structure FAgrees {β : Type} (p : Profile) (m : FMachine β) (c : FCodec β) (Q : β → Prop) : Prop where
  known : m.known = c.known
  unknown : ∀ x, Q x → ∀ (a : Option Nat) (n : Nat), Est p a n → Est p (leftN p a (m.unknown x)) (n + c.unknown x)
  alone : ∀ x, Q x → Est p (sumN p (m.unknown x)) (c.unknown x)

mutual
theorem _root_.Verif.Schema.agrees (cfg : Cfg) : ∀ s : Schema,
    Agrees cfg.prof (s.machine cfg) (s.codec cfg) (fun x => ¬ s.someNumber Wide x)
  | .unit => ⟨rfl, fun _ _ => Est.some _⟩
  | .bool => ⟨rfl, fun _ _ => Est.some _⟩
  | .int _ => ⟨rfl, fun _ _ => Est.some _⟩
  | .f64 => ⟨rfl, fun _ _ => Est.some _⟩
  | .rangedInt _ _ _ => ⟨rfl, fun _ _ => Est.some _⟩
  | .rangedFloat _ _ => ⟨rfl, fun _ _ => Est.some _⟩
  | .zarithN => ⟨rfl, fun (x : Nat) (h : ¬ Wide x) => by
      show Est _ (some (divCeil (bits x % usizeMod) 7)) (divCeil (bits x) 7)
      rw [bits_mod h]
      exact Est.some _⟩
  | .zarithZ => ⟨rfl, fun (x : Int) (h : ¬ Wide x.natAbs) => by
      show Est _ (if bits (Int.natAbs x) % usizeMod ≤ 6 then some 1
          else uadd cfg.prof 1 (divCeil (bits (Int.natAbs x) % usizeMod - 6) 7))
        (if bits (Int.natAbs x) ≤ 6 then 1 else 1 + divCeil (bits (Int.natAbs x) - 6) 7)
      rw [bits_mod h]
      split
      · exact Est.some _
      · exact uadd_est _ _⟩
  | .bytes => ⟨rfl, fun _ _ => Est.some _⟩
  | .vecU8 => ⟨rfl, fun _ _ => Est.some _⟩
  | .string => ⟨rfl, fun _ _ => Est.some _⟩
  | .fixedBytes _ => ⟨rfl, fun _ _ => Est.some _⟩
  | .fixedString _ => ⟨rfl, fun _ _ => Est.some _⟩
  | .cstyle _ _ => ⟨rfl, fun _ _ => Est.some _⟩
  | .hole _ => ⟨rfl, fun x => nomatch x⟩
  | .option s => ⟨congrArg (fun k => match k with | some 0 => some 1 | _ => none) (s.agrees cfg).known, fun x => match x with
    | none => fun _ => Est.some _
    | some y => fun h => (Est.some 1).add ((s.agrees cfg).estimate y fun hy => h ⟨y, rfl, hy⟩)⟩
  | .nullable s => ⟨congrArg (fun k => match k with | some 0 => some 0 | _ => none) (s.agrees cfg).known, fun x => match x with
    | none => fun _ => Est.some _
    | some y => fun h => (s.agrees cfg).estimate y fun hy => h ⟨y, rfl, hy⟩⟩
  | .dynamic S s => ⟨congrArg (fun k => match k with | some n => some (S.len + n) | none => none) (s.agrees cfg).known,
      fun x h => (Est.some S.len).add ((s.agrees cfg).unknown x h)⟩
  | .vpadded _ s => ⟨(s.agrees cfg).known, (s.agrees cfg).unknown⟩
  | .padded n s => ⟨congrArg (fun k => match k with | some m => some (m + n) | none => none) (s.agrees cfg).known,
      fun x h => ((s.agrees cfg).unknown x h).add (Est.some n)⟩
  | .seq s => ⟨rfl, fun xs h => by
      have := Est.left (p := cfg.prof) xs (Est.some 0) fun x hx => (s.agrees cfg).estimate x fun hy => h ⟨x, hx, hy⟩
      rw [Nat.zero_add] at this; exact this⟩
  | .fixSeq n s => ⟨congrArg (fun k => match k with | some m => some (n * m) | none => none) (s.agrees cfg).known,
      fun xs h => by
        have := Est.left (p := cfg.prof) xs (Est.some 0) fun x hx => (s.agrees cfg).unknown x fun hy => h ⟨x, hx, hy⟩
        rw [Nat.zero_add] at this; exact this⟩
  | .limSeq _ s => ⟨rfl, fun xs h => by
      have := Est.left (p := cfg.prof) xs (Est.some 0) fun x hx => (s.agrees cfg).estimate x fun hy => h ⟨x, hx, hy⟩
      rw [Nat.zero_add] at this; exact this⟩
  | .autobox s => ⟨(s.agrees cfg).known, (s.agrees cfg).unknown⟩
  | .data w vs => ⟨rfl, vs.agrees cfg w⟩
  | .record fs => ⟨(fs.agrees cfg).known, (fs.agrees cfg).alone⟩
theorem _root_.Verif.Variants.agrees (cfg : Cfg) : ∀ (vs : Variants) (w : TagWidth) (x : vs.Val),
    ¬ vs.someNumber Wide x → Est cfg.prof ((vs.machine cfg).unknown w x) ((vs.codec cfg).unknown w x)
  | .nil, _, x, _ => nomatch x
  | .cons _ s vs, w, .inl x, h => (Est.some w.len).add ((s.agrees cfg).estimate x fun hx => h (.inl ⟨x, rfl, hx⟩))
  | .cons _ s vs, w, .inr y, h => vs.agrees cfg w y fun hy => h (.inr ⟨y, rfl, hy⟩)
theorem _root_.Verif.Fields.agrees (cfg : Cfg) : ∀ fs : Fields,
    FAgrees cfg.prof (fs.machine cfg) (fs.codec cfg) (fun x => ¬ fs.someNumber Wide x)
  | .nil => ⟨rfl, fun _ _ _ _ h => h, fun _ _ => Est.some _⟩
  | .cons s fs => by
    have h1 := s.agrees cfg
    have h2 := fs.agrees cfg
    refine ⟨?_, fun x q a n h => ?_, fun x q => h2.unknown x.2 (fun h => q (.inr h)) _ _ (h1.unknown x.1 fun h => q (.inl h))⟩
    · show (match (s.machine cfg).known, (fs.machine cfg).known with | some m, some n => some (m + n) | _, _ => none) = _
      rw [h1.known, h2.known]; rfl
    · have := h2.unknown x.2 (fun h => q (.inr h)) _ _ (h.add (h1.unknown x.1 fun h => q (.inl h)))
      rw [Nat.add_assoc] at this
      exact this
end

/-! ### writing -/

theorem encLen_near {α : Type} {cfg : Cfg} {m : Machine α} {c : Codec α} {Q : α → Prop} {x : α} (ha : Agrees cfg.prof m c Q)
    (hx : cfg.encLenOverride = false ∨ Q x) (hw : Exact cfg.prof (m.write sinkTarget x) (c.write sinkTarget x)) :
    (c.encLen cfg x = none → m.encLen cfg x = none) ∧
    (∀ l, c.encLen cfg x = some l → l < usizeMod → m.encLen cfg x = some l) ∧
    (cfg.prof = .debug → ∀ l, c.encLen cfg x = some l → m.encLen cfg x = none ∨ m.encLen cfg x = some l) := by
  simp only [Codec.encLen, Machine.encLen]
  split
  · rename_i ho
    have hx := hx.resolve_left (by rw [ho]; nofun)
    refine ⟨nofun, fun l h hl => ?_, fun hp l h => ?_⟩
    · cases h; exact (ha.estimate x hx).fits hl
    · cases h; exact (ha.estimate x hx).debug hp
  · rw [hw]
    rcases e : c.write sinkTarget x sinkTarget.create with _ | ⟨n, t⟩
    · exact ⟨fun _ => rfl, nofun, nofun⟩
    · refine ⟨nofun, fun l h hl => ?_, fun hp l h => ?_⟩
      · cases h
        cases cfg.prof <;> simp [norm, hl, Nat.mod_eq_of_lt]
      · cases h
        rw [hp]
        by_cases hl : n < usizeMod <;> simp [norm, hl]

theorem int_exact (t : IntTy) (T : TargetOps τ) (x : t.Val) :
    Exact p ((Machine.int p t).write T x) ((Codec.int t).write T x) :=
  add_exact (Near.refl _) (Near.refl _)

theorem ranged_exact (t : IntTy) (min max : Int) (T : TargetOps τ) (x : t.Val) :
    Exact p ((Machine.rangedInt p t min max).write T x) ((Codec.rangedInt t min max).write T x) := by
  simp only [Machine.rangedInt, Codec.rangedInt]
  cases RangedInt.toUnderlying t min max x with
  | some y => exact add_exact (int_exact _ _ _).near (Near.refl _)
  | none => exact panic_exact

theorem prefix_exact (S : LenPref) (T : TargetOps τ) (l : Nat) : Exact p (Machine.prefixWrite p S T l) (S.write T l) := by
  cases S with
  | u8 =>
    simp only [Machine.prefixWrite, LenPref.write]
    cases IntTy.tryFrom .u8 l with
    | some y => exact int_exact _ _ _
    | none => exact panic_exact
  | u16 =>
    simp only [Machine.prefixWrite, LenPref.write]
    cases IntTy.tryFrom .u16 l with
    | some y => exact int_exact _ _ _
    | none => exact panic_exact
  | u30 =>
    simp only [Machine.prefixWrite, LenPref.write]
    cases restrict l 0 LenPref.u30Max with
    | ok _ =>
      cases IntTy.tryFrom .u32 l with
      | some y => exact ranged_exact _ _ _ _ _
      | none => exact panic_exact
    | error _ => exact panic_exact

theorem maxLen_lt (S : LenPref) : S.maxLen + S.len < usizeMod := by cases S <;> decide

theorem dynamic_exact {α : Type} {cfg : Cfg} {S : LenPref} {m : Machine α} {c : Codec α} {Q : α → Prop} {x : α}
    (ha : Agrees cfg.prof m c Q) (hx : cfg.encLenOverride = false ∨ Q x) (hw : ∀ {σ : Type} (T : TargetOps σ), Exact cfg.prof (m.write T x) (c.write T x))
    (hh : cfg.prof = .debug ∨ ∀ l, c.encLen cfg x = some l → l < usizeMod) (T : TargetOps τ) :
    Exact cfg.prof ((Machine.dynamic cfg.prof cfg S m).write T x) ((Codec.dynamic cfg S c).write T x) := by
  have he := encLen_near ha hx (hw sinkTarget)
  have hS := maxLen_lt S
  simp only [Machine.dynamic, Codec.dynamic]
  rcases e : c.encLen cfg x with _ | l
  · rw [he.1 e]; exact panic_exact
  · by_cases hl : l < usizeMod
    · rw [he.2.1 l e hl]
      dsimp only
      split
      · intro t
        dsimp only
        rw [uadd_of_lt (by omega)]
        have h1 := add_exact (add_exact (prefix_exact (p := cfg.prof) S T l).near (hw T).near).near (Near.refl (W.resolveZero T))
          (T.anticipate (l + S.len) t)
        rw [W.assoc] at h1
        exact h1
      · exact panic_exact
    · rcases hh with hd | hh
      · have : ¬ l ≤ S.maxLen := by omega
        rcases he.2.2 hd l e with h | h <;> rw [h] <;> simp only [this, if_false] <;> exact panic_exact
      · exact absurd (hh l e) hl

/-- No contents of a `Dynamic` inside the value are of `usizeMod` bytes or more. -/
def Huge (cfg : Cfg) (s : Schema) (x : s.Val) : Prop := ∃ l, (s.codec cfg).encLen cfg x = some l ∧ usizeMod ≤ l

mutual
theorem _root_.Verif.Schema.exact (cfg : Cfg) : ∀ (s : Schema) (x : s.Val),
    (cfg.encLenOverride = false ∨ ¬ s.someNumber Wide x) →
    (cfg.prof = .debug ∨ ¬ s.someDynamic (Huge cfg) x) → ∀ {τ : Type} (T : TargetOps τ),
    Exact cfg.prof ((s.machine cfg).write T x) ((s.codec cfg).write T x)
  | .unit, _, _, _, _, _ => zero_exact
  | .bool, _, _, _, _, _ => add_exact (Near.refl _) (Near.refl _)
  | .int _, _, _, _, _, _ => int_exact _ _ _
  | .f64, x, _, _, _, T => int_exact (p := cfg.prof) .u64 T x
  | .rangedInt _ _ _, _, _, _, _, _ => ranged_exact _ _ _ _ _
  | .rangedFloat _ _, x, _, _, _, T => int_exact (p := cfg.prof) .u64 T x
  | .zarithN, _, _, _, _, _ => add_exact (Near.refl _) (Near.refl _)
  | .zarithZ, _, _, _, _, _ => add_exact (Near.refl _) (Near.refl _)
  | .bytes, _, _, _, _, _ => add_exact (Near.refl _) (Near.refl _)
  | .vecU8, _, _, _, _, _ => add_exact (Near.refl _) (Near.refl _)
  | .string, _, _, _, _, _ => add_exact (Near.refl _) (Near.refl _)
  | .fixedBytes _, _, _, _, _, _ => add_exact (Near.refl _) (Near.refl _)
  | .fixedString _, _, _, _, _, _ => add_exact (Near.refl _) (Near.refl _)
  | .cstyle _ _, _, _, _, _, _ => add_exact (Near.refl _) (Near.refl _)
  | .hole _, x, _, _, _, _ => nomatch x
  | .option s, none, _, _, _, _ => add_exact (Near.refl _) (Near.refl _)
  | .option s, some y, q, h, _, T =>
    add_exact (add_exact (Near.refl _) (s.exact cfg y (q.imp_right fun h hy => h ⟨y, rfl, hy⟩)
      (h.imp_right fun h hy => h ⟨y, rfl, hy⟩) T).near).near (Near.refl _)
  | .nullable s, none, _, _, _, _ => resolve_exact _
  | .nullable s, some y, q, h, _, T =>
    add_exact (s.exact cfg y (q.imp_right fun h hy => h ⟨y, rfl, hy⟩)
      (h.imp_right fun h hy => h ⟨y, rfl, hy⟩) T).near (Near.refl _)
  | .dynamic S s, x, q, h, _, T =>
    dynamic_exact (s.agrees cfg) q (s.exact cfg x q (h.imp_right fun h hy => h (.inr hy)))
      (h.imp_right fun h l hl => Nat.lt_of_not_le fun hu => h (.inl ⟨l, hl, hu⟩)) T
  | .vpadded _ s, x, q, h, _, T => s.exact cfg x q h T
  | .padded _ s, x, q, h, _, T => add_exact (add_exact (s.exact cfg x q h T).near (Near.refl _)).near (Near.refl _)
  | .seq s, xs, q, h, _, T =>
    add_exact (writeList_near T xs fun x hx => s.exact cfg x (q.imp_right fun h hy => h ⟨x, hx, hy⟩)
      (h.imp_right fun h hy => h ⟨x, hx, hy⟩) T) (Near.refl _)
  | .fixSeq _ s, xs, q, h, _, T =>
    add_exact (writeList_near T xs fun x hx => s.exact cfg x (q.imp_right fun h hy => h ⟨x, hx, hy⟩)
      (h.imp_right fun h hy => h ⟨x, hx, hy⟩) T) (Near.refl _)
  | .limSeq _ s, xs, q, h, _, T =>
    add_exact (writeList_near T xs fun x hx => s.exact cfg x (q.imp_right fun h hy => h ⟨x, hx, hy⟩)
      (h.imp_right fun h hy => h ⟨x, hx, hy⟩) T) (Near.refl _)
  | .autobox s, x, q, h, _, T => s.exact cfg x q h T
  | .data w vs, x, q, h, _, T => vs.exact cfg x q h w T
  | .record fs, x, q, h, _, T => by
    show Exact _ (W.allU cfg.prof ((fs.machine cfg).write T x) (W.resolveZero T))
      (W.add ((fs.codec cfg).write T x) (W.resolveZero T))
    match fs, x, q, h with
    | .nil, x, _, h =>
      rw [show W.add ((Fields.nil.codec cfg).write T x) (W.resolveZero T) = W.resolveZero T from W.zero_left _]
      exact resolve_exact T
    | .cons s fs, x, q, h =>
      have h1 := s.exact cfg x.1 (q.imp_right fun h hy => h (.inl hy)) (h.imp_right fun h hy => h (.inl hy)) T
      have := fs.exact cfg x.2 (q.imp_right fun h hy => h (.inr hy)) (h.imp_right fun h hy => h (.inr hy)) T h1.near (Near.refl (W.resolveZero T))
      rw [← W.assoc] at this
      exact this
theorem _root_.Verif.Variants.exact (cfg : Cfg) : ∀ (vs : Variants) (x : vs.Val),
    (cfg.encLenOverride = false ∨ ¬ vs.someNumber Wide x) →
    (cfg.prof = .debug ∨ ¬ vs.someDynamic (Huge cfg) x) → ∀ (w : TagWidth) {τ : Type} (T : TargetOps τ),
    Exact cfg.prof ((vs.machine cfg).write w T x) ((vs.codec cfg).write w T x)
  | .nil, x, _, _, _, _, _ => nomatch x
  | .cons tag s vs, .inl x, q, h, w, _, T => by
    have h1 := s.exact cfg x (q.imp_right fun h hy => h (.inl ⟨x, rfl, hy⟩)) (h.imp_right fun h hy => h (.inl ⟨x, rfl, hy⟩)) T
    have h2 : Near cfg.prof (Machine.tagWrite cfg.prof w T tag) (w.write T tag) :=
      (add_exact (Near.refl _) (Near.refl _)).near
    have := add_exact (add_exact h2 h1.near).near (Near.refl (W.resolveZero T))
    rw [W.assoc] at this
    exact this
  | .cons _ s vs, .inr y, q, h, w, _, T => vs.exact cfg y (q.imp_right fun h hy => h (.inr ⟨y, rfl, hy⟩))
      (h.imp_right fun h hy => h (.inr ⟨y, rfl, hy⟩)) w T
theorem _root_.Verif.Fields.exact (cfg : Cfg) : ∀ (fs : Fields) (x : fs.Val),
    (cfg.encLenOverride = false ∨ ¬ fs.someNumber Wide x) →
    (cfg.prof = .debug ∨ ¬ fs.someDynamic (Huge cfg) x) → ∀ {τ : Type} (T : TargetOps τ) {a' a z' z : W τ},
    Near cfg.prof a' a → Near cfg.prof z' z →
    Exact cfg.prof (W.leftU cfg.prof a' ((fs.machine cfg).write T x ++ [z'])) (W.add a (W.add ((fs.codec cfg).write T x) z))
  | .nil, x, _, _, _, T, a', a, z', z, ha, hz => by
    rw [show W.add ((Fields.nil.codec cfg).write T x) z = z from W.zero_left _]
    exact add_exact ha hz
  | .cons s fs, x, q, h, _, T, a', a, z', z, ha, hz => by
    have h1 := s.exact cfg x.1 (q.imp_right fun h hy => h (.inl hy)) (h.imp_right fun h hy => h (.inl hy)) T
    have := fs.exact cfg x.2 (q.imp_right fun h hy => h (.inr hy)) (h.imp_right fun h hy => h (.inr hy)) T (add_exact ha h1.near).near hz
    rw [W.assoc, ← W.assoc (a := (s.codec cfg).write T x.1)] at this
    exact this
end

mutual
theorem _root_.Verif.Schema.out_dynamic {cfg : Cfg} {P : (s : Schema) → s.Val → Prop}
    (hP : ∀ S t y b, (Schema.dynamic S t).out cfg y = some b → ¬ P t y) : ∀ (s : Schema) (x : s.Val),
    (∃ b, s.out cfg x = some b) → ¬s.someDynamic P x
  | .unit, _, _ => id
  | .bool, _, _ => id
  | .int _, _, _ => id
  | .f64, _, _ => id
  | .rangedInt _ _ _, _, _ => id
  | .rangedFloat _ _, _, _ => id
  | .zarithN, _, _ => id
  | .zarithZ, _, _ => id
  | .bytes, _, _ => id
  | .vecU8, _, _ => id
  | .string, _, _ => id
  | .fixedBytes _, _, _ => id
  | .fixedString _, _, _ => id
  | .cstyle _ _, _, _ => id
  | .hole _, x, _ => nomatch x
  | .option s, x, ⟨b, h⟩ => fun ⟨y, e, hy⟩ => by
    subst e
    exact s.out_dynamic hP y (Enc.cat_some h).2 hy
  | .nullable s, x, ⟨b, h⟩ => fun ⟨y, e, hy⟩ => by
    subst e
    exact s.out_dynamic hP y ⟨b, h⟩ hy
  | .dynamic S s, x, ⟨b, h⟩ => by
    have : ∃ c, s.out cfg x = some c := by
      have h := h
      simp only [Schema.out, Enc.dynamic] at h
      split at h
      · cases h
      · split at h
        · exact (Enc.cat_some h).2
        · cases h
    rintro (hy | hy)
    · exact hP S s x b h hy
    · exact s.out_dynamic hP x this hy
  | .vpadded _ s, x, h => s.out_dynamic hP x h
  | .padded _ s, x, ⟨_, h⟩ => s.out_dynamic hP x (Enc.cat_some h).1
  | .seq s, xs, ⟨_, h⟩ => fun ⟨y, hm, hy⟩ => s.out_dynamic hP y (Enc.list_some h y hm) hy
  | .fixSeq _ s, xs, ⟨_, h⟩ => fun ⟨y, hm, hy⟩ => s.out_dynamic hP y (Enc.list_some h y hm) hy
  | .limSeq _ s, xs, ⟨_, h⟩ => fun ⟨y, hm, hy⟩ => s.out_dynamic hP y (Enc.list_some h y hm) hy
  | .autobox s, x, h => s.out_dynamic hP x h
  | .data w vs, x, h => vs.out_dynamic hP w x h
  | .record fs, x, h => fs.out_dynamic hP x h
theorem _root_.Verif.Variants.out_dynamic {cfg : Cfg} {P : (s : Schema) → s.Val → Prop}
    (hP : ∀ S t y b, (Schema.dynamic S t).out cfg y = some b → ¬ P t y) : ∀ (vs : Variants) (w : TagWidth) (x : vs.Val),
    (∃ b, vs.out cfg w x = some b) → ¬vs.someDynamic P x
  | .nil, _, x, _ => nomatch x
  | .cons _ s vs, w, .inl y, ⟨_, h⟩ => by
    rintro (⟨z, e, hz⟩ | ⟨z, e, _⟩)
    · cases e; exact s.out_dynamic hP y (Enc.cat_some h).2 hz
    · cases e
  | .cons _ s vs, w, .inr y, h => by
    rintro (⟨z, e, _⟩ | ⟨z, e, hz⟩)
    · cases e
    · cases e; exact vs.out_dynamic hP w y h hz
theorem _root_.Verif.Fields.out_dynamic {cfg : Cfg} {P : (s : Schema) → s.Val → Prop}
    (hP : ∀ S t y b, (Schema.dynamic S t).out cfg y = some b → ¬ P t y) : ∀ (fs : Fields) (x : fs.Val),
    (∃ b, fs.out cfg x = some b) → ¬fs.someDynamic P x
  | .nil, _, _ => id
  | .cons s fs, x, ⟨_, h⟩ => by
    rintro (hz | hz)
    · exact s.out_dynamic hP x.1 (Enc.cat_some h).1 hz
    · exact fs.out_dynamic hP x.2 (Enc.cat_some h).2 hz
end

end Usize
end Verif
