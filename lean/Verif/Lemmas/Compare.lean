import Verif.Spec.Compare
import Verif.Lemmas.Utf8
/-
The laws of comparisons, for the combinators of Verif/Compare.lean and by induction for every schema.
-/
namespace Verif

/-- `cmp` is a partial order up to `eq`, and `eq` is its equivalence. -/
structure Cmp.Laws {α : Type} (eq : α → α → Bool) (cmp : α → α → Option Ordering) : Prop where
  eq_iff : ∀ x y, eq x y = true ↔ cmp x y = some .eq
  swap : ∀ x y, cmp y x = (cmp x y).map Ordering.swap
  eq_left : ∀ x y z, cmp x y = some .eq → cmp x z = cmp y z
  lt_trans : ∀ x y z, cmp x y = some .lt → cmp y z = some .lt → cmp x z = some .lt

namespace Cmp

theorem Laws.eq_right {α : Type} {eq : α → α → Bool} {cmp : α → α → Option Ordering} (L : Laws eq cmp) (x y z : α)
    (h : cmp x y = some .eq) : cmp z x = cmp z y := by
  rw [L.swap x z, L.swap y z, L.eq_left x y z h]

theorem byInt_laws {α : Type} (eq : α → α → Bool) (key : α → Int) (h : ∀ x y, eq x y = true ↔ key x = key y) :
    Laws eq (byInt key) where
  eq_iff x y := by
    rw [h, byInt, Option.some.injEq]
    simp only [compare, compareOfLessAndEq]
    split <;> rename_i a
    · simp; omega
    · split <;> simp_all
  swap x y := by
    simp only [byInt, Option.map, Option.some.injEq, compare, compareOfLessAndEq]
    split <;> split <;> (try split) <;> (try split) <;> first | rfl | omega
  eq_left x y z := by
    simp only [byInt, Option.some.injEq]
    intro h
    have : key x = key y := by
      simp only [compare, compareOfLessAndEq] at h
      split at h
      · cases h
      · split at h
        · assumption
        · cases h
    rw [this]
  lt_trans x y z := by
    simp only [byInt, Option.some.injEq, compare, compareOfLessAndEq]
    intro h1 h2
    have a : key x < key y := by
      split at h1
      · assumption
      · split at h1 <;> cases h1
    have b : key y < key z := by
      split at h2
      · assumption
      · split at h2 <;> cases h2
    rw [if_pos (by omega)]

theorem byInt_id : Laws (fun (x y : Int) => x == y) (byInt fun x => x) :=
  byInt_laws _ _ fun x y => beq_iff_eq

theorem f64_laws : Laws f64Eq f64 where
  eq_iff x y := by
    have h := (byInt_laws (fun a b => F64.key a == F64.key b) F64.key fun x y => beq_iff_eq).eq_iff x y
    simp only [byInt] at h
    simp only [f64Eq, f64, ← h]
    cases F64.isNan x <;> cases F64.isNan y <;> simp [h]
  swap x y := by
    have h := (byInt_laws (fun a b => F64.key a == F64.key b) F64.key fun x y => beq_iff_eq).swap x y
    simp only [byInt] at h
    simp only [f64, h]
    cases F64.isNan x <;> cases F64.isNan y <;> rfl
  eq_left x y z := by
    have h := (byInt_laws (fun a b => F64.key a == F64.key b) F64.key fun x y => beq_iff_eq).eq_left x y z
    simp only [byInt] at h
    simp only [f64]
    cases F64.isNan x <;> cases F64.isNan y <;> simp <;> intro h'
    cases F64.isNan z <;> simp
    rw [h']
  lt_trans x y z := by
    have h := (byInt_laws (fun a b => F64.key a == F64.key b) F64.key fun x y => beq_iff_eq).lt_trans x y z
    simp only [byInt] at h
    simp only [f64]
    cases F64.isNan x <;> cases F64.isNan y <;> cases F64.isNan z <;> simp
    simpa using h

theorem unit_laws {α : Type} : Laws (fun (_ _ : α) => true) (fun _ _ => some .eq) :=
  ⟨fun _ _ => by simp, fun _ _ => rfl, fun _ _ _ _ => rfl, fun _ _ _ h => by cases h⟩

theorem empty_laws : Laws (fun (x _ : Empty) => x.elim) (fun x _ => x.elim) :=
  ⟨fun x => x.elim, fun x => x.elim, fun x => x.elim, fun x => x.elim⟩

theorem comap_laws {α β : Type} {eq : β → β → Bool} {cmp : β → β → Option Ordering} (L : Laws eq cmp) (f : α → β) :
    Laws (fun x y => eq (f x) (f y)) (fun x y => cmp (f x) (f y)) :=
  ⟨fun _ _ => L.eq_iff _ _, fun _ _ => L.swap _ _, fun _ _ _ => L.eq_left _ _ _, fun _ _ _ => L.lt_trans _ _ _⟩

section
variable {α β : Type} {eq : α → α → Bool} {cmp : α → α → Option Ordering} {eq' : β → β → Bool}
  {cmp' : β → β → Option Ordering}

theorem option_laws (L : Laws eq cmp) : Laws (optionEq eq) (option cmp) where
  eq_iff x y := by cases x <;> cases y <;> simp [optionEq, option, L.eq_iff]
  swap x y := by cases x <;> cases y <;> first | rfl | exact L.swap _ _
  eq_left x y z := by
    cases x <;> cases y <;> cases z <;> simp [option]
    exact L.eq_left _ _ _
  lt_trans x y z := by
    cases x <;> cases y <;> cases z <;> simp [option]
    exact L.lt_trans _ _ _

theorem andThen_laws (L : Laws eq cmp) (L' : Laws eq' cmp') :
    Laws (fun x y => eq x.1 y.1 && eq' x.2 y.2) (andThen cmp cmp') where
  eq_iff x y := by
    rw [Bool.and_eq_true, L.eq_iff, L'.eq_iff, andThen]
    split
    · next h => simp [h]
    · next h => constructor
                · exact fun a => absurd a.1 h
                · exact fun a => absurd a h
  swap x y := by
    simp only [andThen, L.swap x.1 y.1, L'.swap x.2 y.2]
    rcases cmp x.1 y.1 with _ | o
    · rfl
    · cases o <;> rfl
  eq_left x y z := by
    simp only [andThen]
    intro h
    cases hc : cmp x.1 y.1 with
    | none => rw [hc] at h; cases h
    | some o =>
      rw [hc] at h
      cases o with
      | lt => cases h
      | gt => cases h
      | eq => rw [L.eq_left _ _ z.1 hc, L'.eq_left _ _ z.2 h]
  lt_trans x y z := by
    simp only [andThen]
    intro h1 h2
    cases hc : cmp x.1 y.1 with
    | none => rw [hc] at h1; cases h1
    | some o =>
      rw [hc] at h1
      cases o with
      | gt => cases h1
      | eq =>
        rw [L.eq_left _ _ z.1 hc]
        cases hd : cmp y.1 z.1 with
        | none => rw [hd] at h2; cases h2
        | some o =>
          rw [hd] at h2
          cases o with
          | gt => cases h2
          | lt => rfl
          | eq => exact L'.lt_trans _ _ _ h1 h2
      | lt =>
        cases hd : cmp y.1 z.1 with
        | none => rw [hd] at h2; cases h2
        | some o =>
          rw [hd] at h2
          cases o with
          | gt => cases h2
          | lt => rw [L.lt_trans _ _ _ hc hd]
          | eq => rw [← L.eq_right _ _ x.1 hd, hc]

theorem orElse_laws (L : Laws eq cmp) (L' : Laws eq' cmp') : Laws (orElseEq eq eq') (orElse cmp cmp') where
  eq_iff x y := by cases x <;> cases y <;> simp [orElseEq, orElse, L.eq_iff, L'.eq_iff]
  swap x y := by cases x <;> cases y <;> first | rfl | exact L.swap _ _ | exact L'.swap _ _
  eq_left x y z := by
    cases x <;> cases y <;> cases z <;> simp [orElse]
    · exact L.eq_left _ _ _
    · exact L'.eq_left _ _ _
  lt_trans x y z := by
    cases x <;> cases y <;> cases z <;> simp [orElse]
    · exact L.lt_trans _ _ _
    · exact L'.lt_trans _ _ _

/-- Lists are compared like optional pairs of an element and a list. -/
theorem slice_unfold (xs ys : List α) :
    slice cmp xs ys = match xs, ys with
      | [], [] => some .eq
      | [], _ :: _ => some .lt
      | _ :: _, [] => some .gt
      | x :: xs, y :: ys => andThen cmp (slice cmp) (x, xs) (y, ys) := by
  cases xs <;> cases ys <;> rfl

theorem sliceEq_cons (x y : α) (xs ys : List α) :
    sliceEq eq (x :: xs) (y :: ys) = (eq x y && sliceEq eq xs ys) := by
  simp only [sliceEq, List.length_cons, List.zip_cons_cons, List.all_cons]
  rw [show (xs.length + 1 == ys.length + 1) = (xs.length == ys.length) by
    rw [Bool.eq_iff_iff, beq_iff_eq, beq_iff_eq]; omega]
  cases eq x y <;> cases (xs.length == ys.length) <;> rfl

theorem slice_laws (L : Laws eq cmp) : Laws (sliceEq eq) (slice cmp) where
  eq_iff xs := by
    induction xs with
    | nil => intro ys; cases ys <;> simp [sliceEq, slice]
    | cons x xs ih =>
      intro ys
      cases ys with
      | nil => simp [sliceEq, slice]
      | cons y ys =>
        rw [sliceEq_cons, Bool.and_eq_true, L.eq_iff, ih, slice]
        split
        · next h => simp [h]
        · next h => exact ⟨fun a => absurd a.1 h, fun a => absurd a h⟩
  swap xs := by
    induction xs with
    | nil => intro ys; cases ys <;> rfl
    | cons x xs ih =>
      intro ys
      cases ys with
      | nil => rfl
      | cons y ys =>
        simp only [slice, L.swap x y, ih]
        rcases cmp x y with _ | o
        · rfl
        · cases o <;> rfl
  eq_left xs := by
    induction xs with
    | nil => intro ys zs h; cases ys with
      | nil => rfl
      | cons => cases h
    | cons x xs ih =>
      intro ys zs h
      cases ys with
      | nil => cases h
      | cons y ys =>
        cases zs with
        | nil => rfl
        | cons z zs =>
          simp only [slice] at h ⊢
          cases hc : cmp x y with
          | none => rw [hc] at h; cases h
          | some o =>
            rw [hc] at h
            cases o with
            | lt => cases h
            | gt => cases h
            | eq => rw [L.eq_left _ _ z hc, ih _ zs h]
  lt_trans xs := by
    induction xs with
    | nil => intro ys zs h1 h2; cases ys with
      | nil => cases h1
      | cons => cases zs with
        | nil => cases h2
        | cons => rfl
    | cons x xs ih =>
      intro ys zs h1 h2
      cases ys with
      | nil => cases h1
      | cons y ys =>
        cases zs with
        | nil => cases h2
        | cons z zs =>
          simp only [slice] at h1 h2 ⊢
          cases hc : cmp x y with
          | none => rw [hc] at h1; cases h1
          | some o =>
            rw [hc] at h1
            cases o with
            | gt => cases h1
            | eq =>
              rw [L.eq_left _ _ z hc]
              cases hd : cmp y z with
              | none => rw [hd] at h2; cases h2
              | some o =>
                rw [hd] at h2
                cases o with
                | gt => cases h2
                | lt => rfl
                | eq => exact ih _ _ h1 h2
            | lt =>
              cases hd : cmp y z with
              | none => rw [hd] at h2; cases h2
              | some o =>
                rw [hd] at h2
                cases o with
                | gt => cases h2
                | lt => rw [L.lt_trans _ _ _ hc hd]
                | eq => rw [← L.eq_right _ _ x hd, hc]

end

theorem bytes_beq (x y : Bytes) : (x == y) = sliceEq (fun a b => a == b) x y := by
  induction x generalizing y with
  | nil => cases y <;> rfl
  | cons a x ih =>
    cases y with
    | nil => rfl
    | cons b y => rw [sliceEq_cons, ← ih]; rfl

theorem bytes_laws : Laws (fun (x y : Bytes) => x == y) bytes := by
  have h : (fun (x y : Bytes) => x == y) = sliceEq (fun a b => a == b) := funext fun x => funext fun y => bytes_beq x y
  rw [h]
  exact slice_laws (byInt_laws _ _ fun a b => by
    rw [beq_iff_eq]
    constructor
    · rintro rfl; rfl
    · intro h; exact UInt8.toNat_inj.mp (by omega))

end Cmp

theorem IntTy.toInt_inj (t : IntTy) {x y : t.Val} (h : t.toInt x = t.toInt y) : x = y := by
  simp only [IntTy.toInt] at h
  split at h
  · exact BitVec.eq_of_toInt_eq h
  · exact BitVec.eq_of_toNat_eq (by omega)

theorem IntTy.cmp_laws (t : IntTy) : Cmp.Laws (fun (x y : t.Val) => x == y) (Cmp.byInt t.toInt) :=
  Cmp.byInt_laws _ _ fun x y => by
    rw [beq_iff_eq]
    exact ⟨fun h => h ▸ rfl, t.toInt_inj⟩

theorem nat_key (x y : Nat) : (x == y) = true ↔ (x : Int) = (y : Int) := by rw [beq_iff_eq]; omega

mutual
theorem Schema.cmp_laws : (s : Schema) → Cmp.Laws s.eqv s.pcmp
  | .unit => Cmp.unit_laws (α := Unit)
  | .bool => Cmp.byInt_laws (α := Bool) _ _ fun x y => by cases x <;> cases y <;> decide
  | .int t => t.cmp_laws
  | .f64 => Cmp.f64_laws
  | .rangedInt t _ _ => t.cmp_laws
  | .rangedFloat _ _ => Cmp.f64_laws
  | .zarithN => Cmp.byInt_laws (α := Nat) _ _ fun x y => nat_key x y
  | .zarithZ => Cmp.byInt_id
  | .bytes => Cmp.bytes_laws
  | .vecU8 => Cmp.bytes_laws
  | .string => Cmp.comap_laws Cmp.bytes_laws utf8
  | .fixedBytes n => Cmp.comap_laws Cmp.bytes_laws (fun (x : ByteArr n) => x.1)
  | .fixedString n => Cmp.comap_laws Cmp.bytes_laws (fun (x : ByteArr n) => x.1)
  | .option s => Cmp.option_laws s.cmp_laws
  | .nullable s => Cmp.option_laws s.cmp_laws
  | .dynamic _ s => s.cmp_laws
  | .vpadded _ s => s.cmp_laws
  | .padded _ s => s.cmp_laws
  | .seq s => Cmp.slice_laws s.cmp_laws
  | .fixSeq _ s => Cmp.slice_laws s.cmp_laws
  | .limSeq _ s => Cmp.slice_laws s.cmp_laws
  | .autobox s => s.cmp_laws
  | .hole _ => Cmp.empty_laws
  | .cstyle _ tags => Cmp.byInt_laws (α := CEnum tags) _ _ fun x y => nat_key x.1 y.1
  | .data _ vs => vs.cmp_laws
  | .record fs => fs.cmp_laws
theorem Variants.cmp_laws : (vs : Variants) → Cmp.Laws vs.eqv vs.pcmp
  | .nil => Cmp.empty_laws
  | .cons _ s vs => Cmp.orElse_laws s.cmp_laws vs.cmp_laws
theorem Fields.cmp_laws : (fs : Fields) → Cmp.Laws fs.eqv fs.pcmp
  | .nil => Cmp.unit_laws (α := Unit)
  | .cons s fs => Cmp.andThen_laws s.cmp_laws fs.cmp_laws
end

/-- `N` tells which values are not equal to themselves. -/
structure Cmp.Nans {α : Type} (cmp : α → α → Option Ordering) (N : α → Prop) : Prop where
  refl : ∀ x, cmp x x = some .eq ↔ ¬N x
  none : ∀ x y, cmp x y = none → N x ∨ N y

namespace Cmp

theorem byInt_refl {α : Type} (key : α → Int) (x : α) : byInt key x x = some .eq := by
  simp [byInt]

theorem byInt_nans {α : Type} (key : α → Int) : Nans (byInt key) (fun _ => False) :=
  ⟨fun x => by simp [byInt_refl], fun x y h => by cases h⟩

theorem f64_nans : Nans f64 (fun x => F64.isNan x = true) :=
  ⟨fun x => by rw [f64]; cases F64.isNan x <;> simp,
   fun x y h => by rw [f64] at h; cases hx : F64.isNan x <;> cases hy : F64.isNan y <;> simp_all⟩

theorem unit_nans {α : Type} : Nans (fun (_ _ : α) => some .eq) (fun _ => False) :=
  ⟨fun _ => by simp, fun _ _ h => by cases h⟩

theorem empty_nans : Nans (fun (x : Empty) (_ : Empty) => x.elim) (fun x => x.elim) :=
  ⟨fun x => x.elim, fun x => x.elim⟩

theorem comap_nans {α β : Type} {cmp : β → β → Option Ordering} (L : Nans cmp fun _ => False) (f : α → β) :
    Nans (fun x y => cmp (f x) (f y)) (fun _ => False) :=
  ⟨fun _ => L.refl _, fun _ _ h => L.none _ _ h⟩

section
variable {α β : Type} {cmp : α → α → Option Ordering} {cmp' : β → β → Option Ordering} {N : α → Prop} {N' : β → Prop}

theorem option_nans (L : Nans cmp N) : Nans (option cmp) (fun o => ∃ x, o = some x ∧ N x) where
  refl o := by
    cases o with
    | none => simp [option]
    | some x => simp [option, L.refl]
  none x y h := by
    cases x <;> cases y <;> try cases h
    rcases L.none _ _ h with a | a
    · exact .inl ⟨_, rfl, a⟩
    · exact .inr ⟨_, rfl, a⟩

theorem andThen_nans (L : Nans cmp N) (L' : Nans cmp' N') : Nans (andThen cmp cmp') (fun x => N x.1 ∨ N' x.2) where
  refl x := by
    rw [not_or, ← L.refl, ← L'.refl, andThen]
    split
    · next h => simp [h]
    · next h => exact ⟨fun a => absurd a h, fun a => absurd a.1 h⟩
  none x y h := by
    rw [andThen] at h
    split at h
    · exact (L'.none _ _ h).imp .inr .inr
    · exact (L.none _ _ h).imp .inl .inl

theorem orElse_nans (L : Nans cmp N) (L' : Nans cmp' N') : Nans (orElse cmp cmp') (Sum.elim N N') where
  refl x := by
    cases x
    · exact L.refl _
    · exact L'.refl _
  none x y h := by
    cases x <;> cases y <;> try cases h
    · exact L.none _ _ h
    · exact L'.none _ _ h

theorem slice_nans (L : Nans cmp N) : Nans (slice cmp) (fun xs => ∃ x ∈ xs, N x) where
  refl xs := by
    induction xs with
    | nil => simp [slice]
    | cons x xs ih =>
      rw [slice]
      split
      · next h =>
        rw [ih]
        have := (L.refl x).mp h
        simp [this]
      · next h =>
        have := mt (L.refl x).mpr h
        exact ⟨fun a => absurd a h, fun a => absurd (fun b => a ⟨x, List.mem_cons_self, b⟩) this⟩
  none xs := by
    induction xs with
    | nil => intro ys h; cases ys <;> cases h
    | cons x xs ih =>
      intro ys h
      cases ys with
      | nil => cases h
      | cons y ys =>
        rw [slice] at h
        split at h
        · rcases ih _ h with ⟨a, m, n⟩ | ⟨a, m, n⟩
          · exact .inl ⟨a, List.mem_cons_of_mem _ m, n⟩
          · exact .inr ⟨a, List.mem_cons_of_mem _ m, n⟩
        · rcases L.none _ _ h with n | n
          · exact .inl ⟨x, List.mem_cons_self, n⟩
          · exact .inr ⟨y, List.mem_cons_self, n⟩

end

theorem Nans.congr {α : Type} {cmp : α → α → Option Ordering} {N N' : α → Prop} (L : Nans cmp N) (h : ∀ x, N x ↔ N' x) :
    Nans cmp N' :=
  (funext fun x => propext (h x) : N = N') ▸ L

theorem bytes_nans : Nans bytes (fun _ => False) :=
  (slice_nans (byInt_nans _)).congr fun x => ⟨fun ⟨_, _, h⟩ => h, False.elim⟩

end Cmp

mutual
theorem Schema.cmp_nans : (s : Schema) → Cmp.Nans s.pcmp s.HasNan
  | .unit => Cmp.unit_nans (α := Unit)
  | .bool => Cmp.byInt_nans (α := Bool) _
  | .int t => Cmp.byInt_nans (α := t.Val) _
  | .f64 => Cmp.f64_nans
  | .rangedInt t _ _ => Cmp.byInt_nans (α := t.Val) _
  | .rangedFloat _ _ => Cmp.f64_nans
  | .zarithN => Cmp.byInt_nans (α := Nat) _
  | .zarithZ => Cmp.byInt_nans (α := Int) _
  | .bytes => Cmp.bytes_nans
  | .vecU8 => Cmp.bytes_nans
  | .string => Cmp.comap_nans Cmp.bytes_nans utf8
  | .fixedBytes n => Cmp.comap_nans Cmp.bytes_nans (fun (x : ByteArr n) => x.1)
  | .fixedString n => Cmp.comap_nans Cmp.bytes_nans (fun (x : ByteArr n) => x.1)
  | .option s => Cmp.option_nans s.cmp_nans
  | .nullable s => Cmp.option_nans s.cmp_nans
  | .dynamic _ s => s.cmp_nans
  | .vpadded _ s => s.cmp_nans
  | .padded _ s => s.cmp_nans
  | .seq s => Cmp.slice_nans s.cmp_nans
  | .fixSeq _ s => Cmp.slice_nans s.cmp_nans
  | .limSeq _ s => Cmp.slice_nans s.cmp_nans
  | .autobox s => s.cmp_nans
  | .hole _ => Cmp.empty_nans
  | .cstyle _ tags => Cmp.byInt_nans (α := CEnum tags) _
  | .data _ vs => vs.cmp_nans
  | .record fs => fs.cmp_nans
theorem Variants.cmp_nans : (vs : Variants) → Cmp.Nans vs.pcmp vs.HasNan
  | .nil => Cmp.empty_nans
  | .cons _ s vs => Cmp.orElse_nans s.cmp_nans vs.cmp_nans
theorem Fields.cmp_nans : (fs : Fields) → Cmp.Nans fs.pcmp fs.HasNan
  | .nil => Cmp.unit_nans (α := Unit)
  | .cons s fs => Cmp.andThen_nans s.cmp_nans fs.cmp_nans
end

/-! ### equality without doubles -/

/-- `==` holds only between a value and itself. -/
def Cmp.Exact {α : Type} (eq : α → α → Bool) : Prop := ∀ x y, eq x y = true ↔ x = y

namespace Cmp

theorem exact_beq {α : Type} [BEq α] [LawfulBEq α] : Exact (fun (x y : α) => x == y) := fun _ _ => beq_iff_eq

theorem exact_comap {α β : Type} [BEq β] [LawfulBEq β] (f : α → β) (hf : ∀ x y, f x = f y → x = y) :
    Exact (fun (x y : α) => f x == f y) := fun _ _ => beq_iff_eq.trans ⟨hf _ _, fun h => h ▸ rfl⟩

section
variable {α β : Type} {eq : α → α → Bool} {eq' : β → β → Bool}

theorem exact_option (h : Exact eq) : Exact (optionEq eq) := fun x y => by
  cases x <;> cases y <;> simp [optionEq, h _ _]

theorem exact_and (h : Exact eq) (h' : Exact eq') : Exact (fun (x y : α × β) => eq x.1 y.1 && eq' x.2 y.2) :=
  fun x y => by rw [Bool.and_eq_true, h, h']; exact ⟨fun a => Prod.ext a.1 a.2, fun a => a ▸ ⟨rfl, rfl⟩⟩

theorem exact_orElse (h : Exact eq) (h' : Exact eq') : Exact (orElseEq eq eq') := fun x y => by
  cases x <;> cases y <;> simp [orElseEq, h _ _, h' _ _]

theorem exact_slice (h : Exact eq) : Exact (sliceEq eq) := fun x => by
  induction x with
  | nil => intro y; cases y <;> simp [sliceEq]
  | cons a x ih =>
    intro y
    cases y with
    | nil => simp [sliceEq]
    | cons b y => rw [sliceEq_cons, Bool.and_eq_true, h, ih, List.cons.injEq]

end

end Cmp

theorem utf8_inj (x y : List Char) (h : utf8 x = utf8 y) : x = y := by
  rw [← lossy_utf8 x, h, lossy_utf8]

mutual
theorem Schema.eqv_exact : (s : Schema) → s.floatFree = true → Cmp.Exact s.eqv
  | .unit, _ => fun (_ _ : Unit) => ⟨fun _ => rfl, fun _ => rfl⟩
  | .bool, _ => Cmp.exact_beq (α := Bool)
  | .int t, _ => Cmp.exact_beq (α := t.Val)
  | .f64, h => absurd h (by simp [Schema.floatFree])
  | .rangedInt t _ _, _ => Cmp.exact_beq (α := t.Val)
  | .rangedFloat _ _, h => absurd h (by simp [Schema.floatFree])
  | .zarithN, _ => Cmp.exact_beq (α := Nat)
  | .zarithZ, _ => Cmp.exact_beq (α := Int)
  | .bytes, _ => Cmp.exact_beq (α := Bytes)
  | .vecU8, _ => Cmp.exact_beq (α := Bytes)
  | .string, _ => Cmp.exact_comap utf8 utf8_inj
  | .fixedBytes n, _ => Cmp.exact_comap (fun (x : ByteArr n) => x.1) fun _ _ h => Subtype.ext h
  | .fixedString n, _ => Cmp.exact_comap (fun (x : ByteArr n) => x.1) fun _ _ h => Subtype.ext h
  | .option s, h => Cmp.exact_option (s.eqv_exact h)
  | .nullable s, h => Cmp.exact_option (s.eqv_exact h)
  | .dynamic _ s, h => s.eqv_exact h
  | .vpadded _ s, h => s.eqv_exact h
  | .padded _ s, h => s.eqv_exact h
  | .seq s, h => Cmp.exact_slice (s.eqv_exact h)
  | .fixSeq _ s, h => Cmp.exact_slice (s.eqv_exact h)
  | .limSeq _ s, h => Cmp.exact_slice (s.eqv_exact h)
  | .autobox s, h => s.eqv_exact h
  | .hole _, _ => fun (x : Empty) => x.elim
  | .cstyle _ tags, _ => Cmp.exact_comap (fun (x : CEnum tags) => x.1) fun _ _ h => Subtype.ext h
  | .data _ vs, h => vs.eqv_exact h
  | .record fs, h => fs.eqv_exact h
theorem Variants.eqv_exact : (vs : Variants) → vs.floatFree = true → Cmp.Exact vs.eqv
  | .nil, _ => fun (x : Empty) => x.elim
  | .cons _ s vs, h =>
    have h' := (Bool.and_eq_true _ _).mp h
    Cmp.exact_orElse (s.eqv_exact h'.1) (vs.eqv_exact h'.2)
theorem Fields.eqv_exact : (fs : Fields) → fs.floatFree = true → Cmp.Exact fs.eqv
  | .nil, _ => fun (_ _ : Unit) => ⟨fun _ => rfl, fun _ => rfl⟩
  | .cons s fs, h =>
    have h' := (Bool.and_eq_true _ _).mp h
    Cmp.exact_and (s.eqv_exact h'.1) (fs.eqv_exact h'.2)
end

/-! ### ranged doubles are not NaN -/

mutual
theorem Schema.valid_not_nan : (s : Schema) → s.rangedFloats = true → ∀ x, s.Valid x → ¬s.HasNan x
  | .unit, _ => fun _ _ h => h
  | .bool, _ => fun _ _ h => h
  | .int _, _ => fun _ _ h => h
  | .f64, h => absurd h (by simp [Schema.rangedFloats])
  | .rangedInt _ _ _, _ => fun _ _ h => h
  | .rangedFloat _ _, _ => fun (x : BitVec 64) hv h => by
    have a : F64.isNan x = true := h
    have b := hv.1
    simp [F64.le, a] at b
  | .zarithN, _ => fun _ _ h => h
  | .zarithZ, _ => fun _ _ h => h
  | .bytes, _ => fun _ _ h => h
  | .vecU8, _ => fun _ _ h => h
  | .string, _ => fun _ _ h => h
  | .fixedBytes _, _ => fun _ _ h => h
  | .fixedString _, _ => fun _ _ h => h
  | .option s, hs => fun _ hv ⟨y, e, h⟩ => s.valid_not_nan hs y (hv y e) h
  | .nullable s, hs => fun _ hv ⟨y, e, h⟩ => s.valid_not_nan hs y (hv y e) h
  | .dynamic _ s, hs => fun x hv => s.valid_not_nan hs x hv
  | .vpadded _ s, hs => fun x hv => s.valid_not_nan hs x hv
  | .padded _ s, hs => fun x hv => s.valid_not_nan hs x hv
  | .seq s, hs => fun _ hv ⟨y, e, h⟩ => s.valid_not_nan hs y (hv y e) h
  | .fixSeq _ s, hs => fun _ hv ⟨y, e, h⟩ => s.valid_not_nan hs y (hv.2 y e) h
  | .limSeq _ s, hs => fun _ hv ⟨y, e, h⟩ => s.valid_not_nan hs y (hv.2 y e) h
  | .autobox s, hs => fun x hv => s.valid_not_nan hs x hv
  | .hole _, _ => fun (x : Empty) => x.elim
  | .cstyle _ _, _ => fun _ _ h => h
  | .data _ vs, hs => fun x hv => vs.valid_not_nan hs x hv
  | .record fs, hs => fun x hv => fs.valid_not_nan hs x hv
theorem Variants.valid_not_nan : (vs : Variants) → vs.rangedFloats = true → ∀ x, vs.Valid x → ¬vs.HasNan x
  | .nil, _ => fun (x : Empty) => x.elim
  | .cons _ s vs, h => fun x =>
    have h' := (Bool.and_eq_true _ _).mp h
    match x with
    | .inl x => s.valid_not_nan h'.1 x
    | .inr x => vs.valid_not_nan h'.2 x
theorem Fields.valid_not_nan : (fs : Fields) → fs.rangedFloats = true → ∀ x, fs.Valid x → ¬fs.HasNan x
  | .nil, _ => fun _ _ h => h
  | .cons s fs, h => fun x hv hn =>
    have h' := (Bool.and_eq_true _ _).mp h
    hn.elim (s.valid_not_nan h'.1 x.1 hv.1) (fs.valid_not_nan h'.2 x.2 hv.2)
end

end Verif
