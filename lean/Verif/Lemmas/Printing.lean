import Verif.Spec.Printing
import Verif.Spec.Compare
import Verif.Lemmas.Debug
import Verif.Lemmas.ErrorText
/-
Printed values are told apart.
-/
namespace Verif

abbrev ends (t : Text) : Prop := stops wordChar t = true

/-- From the text it is clear where it ends and what was printed. -/
structure Readable {α : Type} (f : α → Option Text) : Prop where
  starts : ∀ x t, f x = some t → ∃ c r, t = c :: r ∧ c ≠ ']'
  reads : ∀ x y tx ty u v, f x = some tx → f y = some ty → ends u → ends v → tx ++ u = ty ++ v → x = y ∧ u = v

namespace Readable
variable {α β : Type}

theorem word {f : α → Text} (hn : ∀ x, IsName (f x)) (hi : ∀ x y, f x = f y → x = y) :
    Readable (fun x => some (f x)) where
  starts x t h := by
    cases h
    obtain ⟨h1, h2⟩ := hn x
    cases hx : f x with
    | nil => exact absurd hx h1
    | cons c r =>
      refine ⟨c, r, rfl, fun hc => ?_⟩
      have := h2 c (by rw [hx]; exact List.mem_cons_self ..)
      rw [hc] at this
      exact absurd this (by decide)
  reads x y tx ty u v hx hy hu hv h := by
    cases hx; cases hy
    obtain ⟨h1, h2⟩ := cut (hn x).2 (hn y).2 hu hv h
    exact ⟨hi x y h1, h2⟩

/-- Text around. -/
theorem around {f : α → Option Text} (h : Readable f) (c : Char) (hc : c ≠ ']') (a b : Text) (hb : ends b) (hb0 : b ≠ []) :
    Readable (fun x => (f x).map fun t => c :: a ++ t ++ b) where
  starts x t ht := by
    obtain ⟨s, hs, rfl⟩ := Option.map_eq_some_iff.mp ht
    exact ⟨c, a ++ s ++ b, by simp, hc⟩
  reads x y tx ty u v hx hy hu hv e := by
    obtain ⟨s, hs, rfl⟩ := Option.map_eq_some_iff.mp hx
    obtain ⟨s', hs', rfl⟩ := Option.map_eq_some_iff.mp hy
    have he : ∀ w, ends (b ++ w) := fun w => by
      cases b with
      | nil => exact absurd rfl hb0
      | cons d b => exact hb
    have e' : s ++ (b ++ u) = s' ++ (b ++ v) := by
      simp only [List.append_assoc, List.cons_append, List.cons.injEq, true_and] at e
      exact List.append_cancel_left e
    obtain ⟨h1, h2⟩ := h.reads x y s s' _ _ hs hs' (he u) (he v) e'
    exact ⟨h1, List.append_cancel_left h2⟩

theorem tuple {f : α → Option Text} (h : Readable f) (c : Char) (hc : c ≠ ']') (name : Text) :
    Readable (fun x => (f x).map (DebugOf.tuple (c :: name))) := by
  have := h.around c hc (name ++ ['(']) [')'] rfl (by simp)
  have e : (fun x => (f x).map (DebugOf.tuple (c :: name))) = fun x => (f x).map fun t => c :: (name ++ ['(']) ++ t ++ [')'] := by
    funext x
    cases f x <;> simp [DebugOf.tuple]
  rw [e]; exact this

theorem option {f : α → Option Text} (h : Readable f) : Readable (DebugOf.option f) where
  starts x t ht := by
    cases x with
    | none => cases ht; exact ⟨_, _, rfl, by decide⟩
    | some y =>
      obtain ⟨s, hs, rfl⟩ := Option.map_eq_some_iff.mp ht
      exact ⟨_, _, rfl, by decide⟩
  reads x y tx ty u v hx hy hu hv e := by
    cases x with
    | none =>
      cases hx
      cases y with
      | none => cases hy; exact ⟨rfl, List.append_cancel_left e⟩
      | some y =>
        obtain ⟨s, hs, rfl⟩ := Option.map_eq_some_iff.mp hy
        simp [DebugOf.tuple] at e
    | some x =>
      cases y with
      | none =>
        obtain ⟨s, hs, rfl⟩ := Option.map_eq_some_iff.mp hx
        cases hy
        simp [DebugOf.tuple] at e
      | some y =>
        obtain ⟨h1, h2⟩ := (h.tuple 'S' (by decide) text! "ome").reads x y tx ty u v hx hy hu hv e
        exact ⟨by rw [h1], h2⟩

theorem commas_cons (t t' : Text) (ts : List Text) : DebugOf.commas (t :: t' :: ts) = t ++ ',' :: ' ' :: DebugOf.commas (t' :: ts) := by
  simp [DebugOf.commas]

theorem items {f : α → Option Text} (h : Readable f) : ∀ (xs ys : List α) (tx ty : List Text) (u v : Text),
    DebugOf.each f xs = some tx → DebugOf.each f ys = some ty →
    DebugOf.commas tx ++ ']' :: u = DebugOf.commas ty ++ ']' :: v → xs = ys ∧ u = v
  | [], [], tx, ty, u, v, hx, hy, e => by
    cases hx; cases hy
    simpa [DebugOf.commas] using e
  | [], y :: ys, tx, ty, u, v, hx, hy, e => by
    cases hx
    simp only [DebugOf.each] at hy
    split at hy
    · cases hy
    · rename_i t ht
      obtain ⟨ts, _, rfl⟩ := Option.map_eq_some_iff.mp hy
      obtain ⟨c, r, rfl, hc⟩ := h.starts y t ht
      cases ts <;> simp [DebugOf.commas] at e <;> exact absurd e.1.symm hc
  | x :: xs, [], tx, ty, u, v, hx, hy, e => by
    cases hy
    simp only [DebugOf.each] at hx
    split at hx
    · cases hx
    · rename_i t ht
      obtain ⟨ts, _, rfl⟩ := Option.map_eq_some_iff.mp hx
      obtain ⟨c, r, rfl, hc⟩ := h.starts x t ht
      cases ts <;> simp [DebugOf.commas] at e <;> exact absurd e.1 hc
  | x :: xs, y :: ys, tx, ty, u, v, hx, hy, e => by
    simp only [DebugOf.each] at hx hy
    split at hx
    · cases hx
    split at hy
    · cases hy
    rename_i _ t ht _ t' ht'
    obtain ⟨ts, hts, rfl⟩ := Option.map_eq_some_iff.mp hx
    obtain ⟨ts', hts', rfl⟩ := Option.map_eq_some_iff.mp hy
    cases ts with
    | nil =>
      cases ts' with
      | nil =>
        obtain ⟨h1, h2⟩ := h.reads x y t t' (']' :: u) (']' :: v) ht ht' rfl rfl e
        have h3 := items h xs ys [] [] u v hts hts' h2
        exact ⟨by rw [h1, h3.1], h3.2⟩
      | cons s' ss' =>
        rw [commas_cons, List.append_assoc] at e
        obtain ⟨h1, h2⟩ := h.reads x y t t' (']' :: u) _ ht ht' rfl rfl e
        simp at h2
    | cons s ss =>
      cases ts' with
      | nil =>
        rw [commas_cons, List.append_assoc] at e
        obtain ⟨h1, h2⟩ := h.reads x y t t' _ (']' :: v) ht ht' rfl rfl e
        simp at h2
      | cons s' ss' =>
        rw [commas_cons, commas_cons, List.append_assoc, List.append_assoc] at e
        obtain ⟨h1, h2⟩ := h.reads x y t t' _ _ ht ht' rfl rfl e
        simp only [List.cons_append, List.cons.injEq, true_and] at h2
        have h3 := items h xs ys _ _ u v hts hts' h2
        exact ⟨by rw [h1, h3.1], h3.2⟩

theorem list {f : α → Option Text} (h : Readable f) : Readable (DebugOf.list f) where
  starts x t ht := by
    obtain ⟨s, hs, rfl⟩ := Option.map_eq_some_iff.mp ht
    exact ⟨_, _, rfl, by decide⟩
  reads x y tx ty u v hx hy hu hv e := by
    obtain ⟨s, hs, rfl⟩ := Option.map_eq_some_iff.mp hx
    obtain ⟨s', hs', rfl⟩ := Option.map_eq_some_iff.mp hy
    refine h.items x y s s' u v hs hs' ?_
    simpa using e

theorem dynamic (S : LenPref) {len : α → Option Nat} {f : α → Option Text} (h : Readable f) :
    Readable (fun x => DebugOf.dynamic S (len x) (f x)) where
  starts x t ht := by
    simp only [DebugOf.dynamic] at ht
    split at ht
    · cases ht
    · obtain ⟨s, hs, rfl⟩ := Option.map_eq_some_iff.mp ht
      exact ⟨_, _, rfl, by decide⟩
  reads x y tx ty u v hx hy hu hv e := by
    simp only [DebugOf.dynamic] at hx hy
    split at hx
    · cases hx
    split at hy
    · cases hy
    obtain ⟨s, hs, rfl⟩ := Option.map_eq_some_iff.mp hx
    obtain ⟨s', hs', rfl⟩ := Option.map_eq_some_iff.mp hy
    simp only [List.append_assoc, List.cons_append, List.nil_append, List.cons.injEq, true_and] at e
    have hS : ∀ w, stops Char.isDigit (DebugOf.suffix S ++ w) = true := fun w => by cases S <;> rfl
    have e2 := List.append_cancel_left (decimal_cut (hS _) (hS _) e).2
    simp only [List.cons.injEq, true_and] at e2
    obtain ⟨h1, h2⟩ := h.reads x y s s' (']' :: u) (']' :: v) hs hs' rfl rfl e2
    exact ⟨h1, by simpa using h2⟩

/-- Values that are read through something else. -/
theorem comap {f : β → Option Text} (h : Readable f) (g : α → β) (hg : ∀ x y, g x = g y → x = y) : Readable (fun x => f (g x)) where
  starts x t ht := h.starts _ t ht
  reads x y tx ty u v hx hy hu hv e :=
    have := h.reads (g x) (g y) tx ty u v hx hy hu hv e
    ⟨hg x y this.1, this.2⟩

end Readable

theorem isName_decimal (n : Nat) : IsName (decimal n) :=
  ⟨decimal_ne_nil n, fun c hc => by
    have := decimal_digits n c hc
    simp only [wordChar, Bool.not_eq_true', Bool.or_eq_false_iff, beq_eq_false_iff_ne]
    refine ⟨⟨⟨⟨?_, ?_⟩, ?_⟩, ?_⟩, ?_⟩ <;> (rintro rfl; exact absurd this (by decide))⟩

theorem isName_signed : ∀ z : Int, IsName (signed z)
  | .ofNat n => isName_decimal n
  | .negSucc n => ⟨by simp [signed], fun c hc => by
      rcases List.mem_cons.mp hc with rfl | hc
      · decide
      · exact (isName_decimal (n + 1)).2 c hc⟩

theorem bytes_readable : Readable (fun bs : Bytes => some (DebugOf.bytes bs)) where
  starts x t ht := by cases ht; exact ⟨_, _, rfl, by decide⟩
  reads x y tx ty u v hx hy hu hv e := by
    cases hx; cases hy
    obtain ⟨h1, h2⟩ := debugList_cut e
    exact ⟨List.map_inj_right (fun a b h => UInt8.toNat_inj.mp h) |>.mp h1, h2⟩

/-! ### structs -/

/-- The texts, each after its label. -/
def labelled (pre : Nat → Text) : Nat → List Text → List Text
  | _, [] => []
  | i, t :: ts => (pre i ++ t) :: labelled pre (i + 1) ts

theorem labels_eq (field : Nat → Text) : ∀ (ts : List Text) (i : Nat),
    DebugOf.labels field i ts = labelled (fun i => field i ++ [':', ' ']) i ts
  | [], _ => rfl
  | t :: ts, i => by rw [DebugOf.labels, labelled, labels_eq field ts]

theorem labelled_nil : ∀ (ts : List Text) (i : Nat), labelled (fun _ => []) i ts = ts
  | [], _ => rfl
  | t :: ts, i => by rw [labelled, labelled_nil ts]; rfl

/-- The texts of the fields of a record are told apart. -/
structure FReadable {α : Type} (n : Nat) (f : α → Option (List Text)) : Prop where
  count : ∀ x t, f x = some t → t.length = n
  reads : ∀ pre i x y tx ty u v, f x = some tx → f y = some ty → ends u → ends v →
    DebugOf.commas (labelled pre i tx) ++ u = DebugOf.commas (labelled pre i ty) ++ v → x = y ∧ u = v

namespace FReadable
variable {α β : Type}

theorem nil : FReadable 0 (fun _ : Unit => some []) where
  count x t h := by cases h; rfl
  reads pre i x y tx ty u v hx hy hu hv e := by
    cases hx; cases hy
    exact ⟨rfl, e⟩

theorem cons {f : α → Option Text} {g : β → Option (List Text)} {n : Nat} (hf : Readable f) (hg : FReadable n g) :
    FReadable (n + 1) (fun x : α × β => match f x.1 with
      | none => none
      | some t => (g x.2).map (t :: ·)) where
  count x t h := by
    split at h
    · cases h
    · obtain ⟨s, hs, rfl⟩ := Option.map_eq_some_iff.mp h
      simp [hg.count _ _ hs]
  reads pre i x y tx ty u v hx hy hu hv e := by
    split at hx
    · cases hx
    split at hy
    · cases hy
    rename_i _ t ht _ t' ht'
    obtain ⟨ts, hts, rfl⟩ := Option.map_eq_some_iff.mp hx
    obtain ⟨ts', hts', rfl⟩ := Option.map_eq_some_iff.mp hy
    have l1 := hg.count _ _ hts
    have l2 := hg.count _ _ hts'
    cases ts with
    | nil =>
      cases ts' with
      | cons s' ss' => simp at l1 l2; omega
      | nil =>
        simp only [labelled, DebugOf.commas, List.append_assoc] at e
        obtain ⟨h1, h2⟩ := hf.reads x.1 y.1 t t' u v ht ht' hu hv (List.append_cancel_left e)
        have h3 := hg.reads (fun _ => []) 0 x.2 y.2 [] [] u v hts hts' hu hv h2
        exact ⟨Prod.ext h1 h3.1, h2⟩
    | cons s ss =>
      cases ts' with
      | nil => simp at l1 l2; omega
      | cons s' ss' =>
        simp only [labelled] at e
        rw [Readable.commas_cons, Readable.commas_cons, List.append_assoc, List.append_assoc, List.append_assoc,
          List.append_assoc] at e
        obtain ⟨h1, h2⟩ := hf.reads x.1 y.1 t t' _ _ ht ht' rfl rfl (List.append_cancel_left e)
        simp only [List.cons_append, List.cons.injEq, true_and] at h2
        have h3 := hg.reads pre (i + 1) x.2 y.2 _ _ u v hts hts' hu hv h2
        exact ⟨Prod.ext h1 h3.1, h3.2⟩

theorem single {f : α → Option Text} (hf : Readable f) : FReadable 1 (fun x => (f x).map ([·])) where
  count x t h := by
    obtain ⟨s, hs, rfl⟩ := Option.map_eq_some_iff.mp h
    rfl
  reads pre i x y tx ty u v hx hy hu hv e := by
    obtain ⟨s, hs, rfl⟩ := Option.map_eq_some_iff.mp hx
    obtain ⟨s', hs', rfl⟩ := Option.map_eq_some_iff.mp hy
    simp only [labelled, DebugOf.commas, List.append_assoc] at e
    exact hf.reads x y s s' u v hs hs' hu hv (List.append_cancel_left e)

/-- A struct begins with its name. -/
theorem struct_eq (sh : Shape) (ts : List Text) : ∃ r, ends r ∧ DebugOf.struct sh ts = sh.name ++ r := by
  cases sh <;> cases ts <;> refine ⟨_, ?_, by
    simp only [DebugOf.struct, Shape.name, List.append_assoc]; first | rfl | exact (List.append_nil _).symm⟩ <;> rfl

theorem ends_append {r u : Text} (hr : ends r) (hu : ends u) : ends (r ++ u) := by
  cases r with
  | nil => exact hu
  | cons c r => exact hr

theorem struct_reads {f : α → Option (List Text)} {n : Nat} (hf : FReadable n f) (sh : Shape) (x y : α) (tx ty : List Text)
    (u v : Text) (hx : f x = some tx) (hy : f y = some ty) (hu : ends u) (hv : ends v)
    (e : DebugOf.struct sh tx ++ u = DebugOf.struct sh ty ++ v) : x = y ∧ u = v := by
  have l1 := hf.count _ _ hx
  have l2 := hf.count _ _ hy
  cases tx with
  | nil =>
    cases ty with
    | cons => simp at l1 l2; omega
    | nil =>
      have h2 : u = v := List.append_cancel_left e
      exact hf.reads (fun _ => []) 0 x y [] [] u v hx hy hu hv h2
  | cons t ts =>
    cases ty with
    | nil => simp at l1 l2; omega
    | cons t' ts' =>
      cases sh with
      | tuple name =>
        simp only [DebugOf.struct, List.append_assoc] at e
        have e2 := List.append_cancel_left e
        simp only [List.cons_append, List.nil_append, List.cons.injEq, true_and] at e2
        have := hf.reads (fun _ => []) 0 x y (t :: ts) (t' :: ts') (')' :: u) (')' :: v) hx hy rfl rfl (by
          rw [labelled_nil, labelled_nil]; exact e2)
        exact ⟨this.1, by simpa using this.2⟩
      | named name field =>
        simp only [DebugOf.struct, List.append_assoc, labels_eq] at e
        have e2 := List.append_cancel_left e
        simp only [List.cons_append, List.nil_append, List.cons.injEq, true_and] at e2
        have := hf.reads _ 0 x y (t :: ts) (t' :: ts') (' ' :: '}' :: u) (' ' :: '}' :: v) hx hy rfl rfl e2
        exact ⟨this.1, by simpa using this.2⟩

theorem record {f : α → Option (List Text)} {n : Nat} (hf : FReadable n f) (sh : Shape) (hn : IsName sh.name) :
    Readable (fun x => (f x).map (DebugOf.struct sh)) where
  starts x t h := by
    obtain ⟨s, hs, rfl⟩ := Option.map_eq_some_iff.mp h
    obtain ⟨r, _, e⟩ := struct_eq sh s
    obtain ⟨h1, h2⟩ := hn
    cases hx : sh.name with
    | nil => exact absurd hx h1
    | cons c t =>
      rw [hx] at e
      refine ⟨c, t ++ r, e, fun hc => ?_⟩
      have := h2 c (by rw [hx]; exact List.mem_cons_self ..)
      rw [hc] at this
      exact absurd this (by decide)
  reads x y tx ty u v hx hy hu hv e := by
    obtain ⟨s, hs, rfl⟩ := Option.map_eq_some_iff.mp hx
    obtain ⟨s', hs', rfl⟩ := Option.map_eq_some_iff.mp hy
    exact hf.struct_reads sh x y s s' u v hs hs' hu hv e

end FReadable

/-! ### all types -/

/-- The arms of an enum, from the `i`-th on. -/
structure VReadable {α : Type} (name : Nat → Text) (i : Nat) (f : α → Option Text) : Prop where
  begins : ∀ x t, f x = some t → ∃ j r, i ≤ j ∧ ends r ∧ t = name j ++ r
  reads : ∀ x y tx ty u v, f x = some tx → f y = some ty → ends u → ends v → tx ++ u = ty ++ v → x = y ∧ u = v

theorem VReadable.cons {α β : Type} {whole : Nat → Shape} (hn : ∀ i, IsName (whole i).name)
    (hi : ∀ i j, (whole i).name = (whole j).name → i = j) {i n : Nat} {f : α → Option (List Text)} (hf : FReadable n f)
    {g : β → Option Text} (hg : VReadable (fun j => (whole j).name) (i + 1) g) (h : α ⊕ β → Option Text)
    (e1 : ∀ x, h (.inl x) = (f x).map (DebugOf.struct (whole i))) (e2 : ∀ y, h (.inr y) = g y) :
    VReadable (fun j => (whole j).name) i h where
  begins x t ht := by
    cases x with
    | inl x =>
      rw [e1] at ht
      obtain ⟨s, hs, rfl⟩ := Option.map_eq_some_iff.mp ht
      obtain ⟨r, hr, e⟩ := FReadable.struct_eq (whole i) s
      exact ⟨i, r, Nat.le_refl _, hr, e⟩
    | inr y =>
      rw [e2] at ht
      obtain ⟨j, r, hj, hr, e⟩ := hg.begins y t ht
      exact ⟨j, r, by omega, hr, e⟩
  reads x y tx ty u v hx hy hu hv e := by
    have differ : ∀ (y : β) (x : α) (s : List Text) (t w z : Text), f x = some s → g y = some t → ends w → ends z →
        DebugOf.struct (whole i) s ++ w ≠ t ++ z := by
      intro y x s t w z hs ht hw hz e
      obtain ⟨r, hr, e3⟩ := FReadable.struct_eq (whole i) s
      obtain ⟨j, r', hj, hr', e4⟩ := hg.begins y t ht
      rw [e3, e4, List.append_assoc, List.append_assoc] at e
      have := (cut (hn i).2 (hn j).2 (FReadable.ends_append hr hw) (FReadable.ends_append hr' hz) e).1
      have := hi i j this
      omega
    cases x with
    | inl x =>
      rw [e1] at hx
      obtain ⟨s, hs, rfl⟩ := Option.map_eq_some_iff.mp hx
      cases y with
      | inl y =>
        rw [e1] at hy
        obtain ⟨s', hs', rfl⟩ := Option.map_eq_some_iff.mp hy
        obtain ⟨h1, h2⟩ := hf.struct_reads _ x y s s' u v hs hs' hu hv e
        exact ⟨by rw [h1], h2⟩
      | inr y =>
        rw [e2] at hy
        exact absurd e (differ y x s ty u v hs hy hu hv)
    | inr x =>
      rw [e2] at hx
      cases y with
      | inl y =>
        rw [e1] at hy
        obtain ⟨s', hs', rfl⟩ := Option.map_eq_some_iff.mp hy
        exact absurd e.symm (differ x y s' tx v u hs' hx hv hu)
      | inr y =>
        rw [e2] at hy
        obtain ⟨h1, h2⟩ := hg.reads x y tx ty u v hx hy hu hv e
        exact ⟨by rw [h1], h2⟩

theorem VReadable.data {α : Type} {name : Nat → Text} {f : α → Option Text} (h : VReadable name 0 f) :
    Readable (fun x => (f x).map ('#' :: ·)) where
  starts x t ht := by
    obtain ⟨s, hs, rfl⟩ := Option.map_eq_some_iff.mp ht
    exact ⟨_, _, rfl, by decide⟩
  reads x y tx ty u v hx hy hu hv e := by
    obtain ⟨s, hs, rfl⟩ := Option.map_eq_some_iff.mp hx
    obtain ⟨s', hs', rfl⟩ := Option.map_eq_some_iff.mp hy
    exact h.reads x y s s' u v hs hs' hu hv (by simpa using e)

/-- The number of fields of the struct of an arm. -/
def Fields.count : Fields → Nat
  | .nil => 0
  | .cons _ fs => fs.count + 1

theorem IntTy.toInt_inj (t : IntTy) (x y : t.Val) (h : t.toInt x = t.toInt y) : x = y := by
  unfold IntTy.toInt at h
  split at h
  · exact BitVec.eq_of_toInt_eq h
  · exact BitVec.eq_of_toNat_eq (by omega)

mutual
theorem Schema.readable (cfg : Cfg) (W : Printing) (hW : W.Proper) : ∀ s : Schema, s.floatFree = true → Readable (s.debug cfg W)
  | .unit, _ => {
      starts := fun x t ht => by cases ht; exact ⟨_, _, rfl, by decide⟩
      reads := fun x y tx ty u v hx hy hu hv e => by cases hx; cases hy; exact ⟨rfl, List.append_cancel_left e⟩ }
  | .bool, _ => Readable.word (α := Bool) (f := DebugOf.bool) (fun b => by cases b <;> exact ⟨by decide, by decide⟩)
      (fun x y h => by cases x <;> cases y <;> first | rfl | cases h)
  | .int t, _ => Readable.word (α := t.Val) (f := fun x => signed (t.toInt x)) (fun x => isName_signed _)
      (fun x y h => t.toInt_inj x y (signed_inj h))
  | .rangedInt t _ _, _ => Readable.tuple (α := t.Val) (f := fun x => some (signed (t.toInt x)))
      (.word (fun x => isName_signed _) (fun x y h => t.toInt_inj x y (signed_inj h))) 'R' (by decide) text! "angedInt"
  | .zarithN, _ => Readable.tuple (α := Nat) (f := fun x => some (decimal x))
      (.word isName_decimal (fun x y h => decimal_inj h)) 'ℕ' (by decide) []
  | .zarithZ, _ => Readable.tuple (α := Int) (f := fun x => some (signed x))
      (.word isName_signed (fun x y h => signed_inj h)) 'ℤ' (by decide) []
  | .bytes, _ => bytes_readable.tuple 'B' (by decide) text! "ytes"
  | .vecU8, _ => bytes_readable
  | .string, _ => {
      starts := fun x t ht => by
        obtain ⟨r, hr⟩ := hW.quote x
        cases ht
        exact ⟨_, _, hr, by decide⟩
      reads := fun x y tx ty u v hx hy hu hv e => by
        cases hx; cases hy
        exact hW.str _ _ _ _ e }
  | .fixedBytes n, _ => Readable.comap (α := ByteArr n) (bytes_readable.tuple 'F' (by decide) text! "ixedBytes") Subtype.val
      (fun _ _ h => Subtype.ext h)
  | .fixedString n, _ => Readable.comap (α := ByteArr n)
      (bytes_readable.around 'F' (by decide) text! "ixedString { contents: " text! " }" rfl (by simp)) Subtype.val
      (fun _ _ h => Subtype.ext h)
  | .option s, hf => Readable.option (s.readable cfg W hW hf)
  | .nullable s, hf => (Readable.option (s.readable cfg W hW hf)).tuple 'N' (by decide) text! "ullable"
  | .dynamic S s, hf => Readable.dynamic S (s.readable cfg W hW hf)
  | .vpadded _ s, hf => s.readable cfg W hW hf
  | .padded _ s, hf => (s.readable cfg W hW hf).tuple 'P' (by decide) text! "added"
  | .seq s, hf => (Readable.list (s.readable cfg W hW hf)).tuple 'S' (by decide) text! "equence"
  | .fixSeq _ s, hf => (Readable.list (s.readable cfg W hW hf)).tuple 'F' (by decide) text! "ixSeq"
  | .limSeq _ s, hf => (Readable.list (s.readable cfg W hW hf)).tuple 'L' (by decide) text! "imSeq"
  | .autobox s, hf => s.readable cfg W hW hf
  | .hole _, _ => { starts := fun x => (nomatch x), reads := fun x => (nomatch x) }
  | .cstyle _ tags, _ => Readable.word (α := CEnum tags) (f := fun x => W.variant tags x.1) (fun x => hW.variant tags x.1)
      (fun x y h => Subtype.ext (hW.variant_ne tags x.1 y.1 x.2 y.2 h))
  | .data _ vs, hf => (vs.readable cfg W hW vs 0 hf).data
  | .record fs, hf => (fs.readable cfg W hW hf).record _ (hW.record fs)
theorem Variants.readable (cfg : Cfg) (W : Printing) (hW : W.Proper) : ∀ (vs whole : Variants) (i : Nat), vs.floatFree = true →
    VReadable (fun j => (W.arm whole j).name) i (vs.debug cfg W whole i)
  | .nil, _, _, _ => { begins := fun x => (nomatch x), reads := fun x => (nomatch x) }
  | .cons tag s vs, whole, i, hf0 => by
    have hf := Bool.and_eq_true_iff.mp hf0
    have ih := vs.readable cfg W hW whole (i + 1) hf.2
    have hs : ∃ n, FReadable n (s.armTexts cfg W) := by
      have h1 := hf.1
      clear hf hf0
      cases s
      case record fs => exact ⟨_, fs.readable cfg W hW h1⟩
      all_goals exact ⟨1, FReadable.single (Schema.readable cfg W hW _ h1)⟩
    obtain ⟨n, hs⟩ := hs
    exact VReadable.cons (whole := W.arm whole) (hW.arm whole) (hW.arm_ne whole) hs ih _
      (Variants.debug_inl cfg W tag s vs whole i) (Variants.debug_inr cfg W tag s vs whole i)
theorem Fields.readable (cfg : Cfg) (W : Printing) (hW : W.Proper) : ∀ fs : Fields, fs.floatFree = true →
    FReadable fs.count (fs.debug cfg W)
  | .nil, _ => FReadable.nil
  | .cons s fs, hf =>
    have hf := Bool.and_eq_true_iff.mp hf
    FReadable.cons (s.readable cfg W hW hf.1) (fs.readable cfg W hW hf.2)
end

end Verif
