import Verif.Lemmas.Refactor
import Verif.Lemmas.Shortfall
/-
Rearranged types when length estimates are trusted: proper values stay proper, hold as many `N`s with value 0, and are
written alike.
-/
namespace Verif

variable {α β γ α' β' : Type}

/-- Corresponding values are alike in these respects. -/
structure Sim (i : Iso α β) (V : α → Prop) (V' : β → Prop) (z : α → Nat) (z' : β → Nat) (e : Enc α) (e' : Enc β) : Prop where
  valid : ∀ x, V' (i.to x) ↔ V x
  zeros : ∀ x, z' (i.to x) = z x
  out : ∀ x, V x → e' (i.to x) = e x

namespace Sim

variable {i : Iso α β} {j : Iso β γ} {V : α → Prop} {V' : β → Prop} {V'' : γ → Prop} {z : α → Nat} {z' : β → Nat} {z'' : γ → Nat}
  {e : Enc α} {e' : Enc β} {e'' : Enc γ}

theorem refl (V : α → Prop) (z : α → Nat) (e : Enc α) : Sim (Iso.refl α) V V z z e e :=
  ⟨fun _ => Iff.rfl, fun _ => rfl, fun _ _ => rfl⟩

theorem symm (h : Sim i V V' z z' e e') : Sim i.symm V' V z' z e' e where
  valid y := by rw [← h.valid]; exact iff_of_eq (congrArg V' (i.to_back y))
  zeros y := by rw [← h.zeros]; exact congrArg z' (i.to_back y)
  out y hy := by
    have e1 : i.to (i.back y) = y := i.to_back y
    rw [← e1] at hy
    exact (h.out (i.back y) ((h.valid _).mp hy)).symm.trans (congrArg e' e1)

theorem trans (h : Sim i V V' z z' e e') (h' : Sim j V' V'' z' z'' e' e'') : Sim (i.trans j) V V'' z z'' e e'' :=
  ⟨fun x => (h'.valid _).trans (h.valid x), fun x => (h'.zeros _).trans (h.zeros x),
    fun x hx => (h'.out _ ((h.valid x).mpr hx)).trans (h.out x hx)⟩

/-- Of types whose values are all proper and that have no `N`s. -/
theorem plain (h : ∀ x, e' (i.to x) = e x) : Sim i (fun _ => True) (fun _ => True) (fun _ => 0) (fun _ => 0) e e' :=
  ⟨fun _ => Iff.rfl, fun _ => rfl, fun x _ => h x⟩

theorem option_valid (h : ∀ x, V' (i.to x) ↔ V x) (o : Option α) :
    (∀ y, i.option.to o = some y → V' y) ↔ ∀ x, o = some x → V x := by
  cases o with
  | none => exact ⟨fun _ _ h => (nomatch h), fun _ _ h => (nomatch h)⟩
  | some x =>
    constructor
    · intro h1 y hy
      cases hy
      exact (h x).mp (h1 _ rfl)
    · intro h1 y hy
      have hy : some (i.to x) = some y := hy
      cases hy
      exact (h x).mpr (h1 _ rfl)

/-- How `N`s with value 0 are counted in an optional value. -/
def _root_.Verif.Counts (z : α → Nat) (zo : Option α → Nat) : Prop := zo none = 0 ∧ ∀ x, zo (some x) = z x

theorem option_zeros {zo : Option α → Nat} {zo' : Option β → Nat} (hz : Counts z zo) (hz' : Counts z' zo')
    (h : ∀ x, z' (i.to x) = z x) (o : Option α) : zo' (i.option.to o) = zo o := by
  cases o with
  | none => exact hz'.1.trans hz.1.symm
  | some x => exact (hz'.2 _).trans ((h x).trans (hz.2 x).symm)

theorem option {zo : Option α → Nat} {zo' : Option β → Nat} (hz : Counts z zo) (hz' : Counts z' zo') (h : Sim i V V' z z' e e') :
    Sim i.option (fun o => ∀ x, o = some x → V x) (fun o => ∀ x, o = some x → V' x) zo zo' (Enc.option e) (Enc.option e') where
  valid := option_valid h.valid
  zeros := option_zeros hz hz' h.zeros
  out o ho := by
    cases o with
    | none => rfl
    | some x => exact congrArg (Enc.cat (some [0xff])) (h.out x (ho x rfl))

theorem nullable {zo : Option α → Nat} {zo' : Option β → Nat} (hz : Counts z zo) (hz' : Counts z' zo') (h : Sim i V V' z z' e e') :
    Sim i.option (fun o => ∀ x, o = some x → V x) (fun o => ∀ x, o = some x → V' x) zo zo' (Enc.nullable e) (Enc.nullable e') where
  valid := option_valid h.valid
  zeros := option_zeros hz hz' h.zeros
  out o ho := by
    cases o with
    | none => rfl
    | some x => exact h.out x (ho x rfl)

theorem dynamic (S : LenPref) {l : α → Option Nat} {l' : β → Option Nat} (h : Sim i V V' z z' e e')
    (hl : ∀ x b, V x → e x = some b → l' (i.to x) = l x) : Sim i V V' z z' (Enc.dynamic S l e) (Enc.dynamic S l' e') where
  valid := h.valid
  zeros := h.zeros
  out x hx := by
    have h1 := h.out x hx
    apply Option.ext
    intro c
    rw [Enc.dynamic_eq_some, Enc.dynamic_eq_some]
    constructor
    · rintro ⟨n, b, h2, h3, h4, rfl⟩
      rw [h1] at h4
      exact ⟨n, b, (hl x b hx h4).symm.trans h2, h3, h4, rfl⟩
    · rintro ⟨n, b, h2, h3, h4, rfl⟩
      exact ⟨n, b, (hl x b hx h4).trans h2, h3, h1.trans h4, rfl⟩

theorem padded (n : Nat) (h : Sim i V V' z z' e e') : Sim i V V' z z' (Enc.padded n e) (Enc.padded n e') where
  valid := h.valid
  zeros := h.zeros
  out x hx := by simp only [Enc.padded, h.out x hx]

theorem list_out (h : ∀ x, V x → e' (i.to x) = e x) : ∀ xs : List α, (∀ x ∈ xs, V x) → Enc.list e' (xs.map i.to) = Enc.list e xs
  | [], _ => rfl
  | x :: xs, hv => by
    show Enc.cat (e' (i.to x)) (Enc.list e' (xs.map i.to)) = Enc.cat (e x) (Enc.list e xs)
    rw [h x (hv x (by simp)), list_out h xs fun y hy => hv y (by simp [hy])]

theorem list_valid (h : ∀ x, V' (i.to x) ↔ V x) (xs : List α) : (∀ y ∈ xs.map i.to, V' y) ↔ ∀ x ∈ xs, V x := by
  simp only [List.mem_map, forall_exists_index, and_imp, forall_apply_eq_imp_iff₂, h]

theorem list_zeros (h : ∀ x, z' (i.to x) = z x) (xs : List α) : ((xs.map i.to).map z').sum = (xs.map z).sum := by
  rw [List.map_map, show z' ∘ i.to = z from funext h]

theorem seq (h : Sim i V V' z z' e e') :
    Sim i.list (fun xs => ∀ x ∈ xs, V x) (fun xs => ∀ x ∈ xs, V' x) (fun xs => (xs.map z).sum) (fun xs => (xs.map z').sum) (Enc.list e)
      (Enc.list e') :=
  ⟨list_valid h.valid, list_zeros h.zeros, list_out h.out⟩

theorem fixSeq (n : Nat) (h : Sim i V V' z z' e e') :
    Sim i.list (fun xs => xs.length = n ∧ ∀ x ∈ xs, V x) (fun xs => xs.length = n ∧ ∀ x ∈ xs, V' x) (fun xs => (xs.map z).sum)
      (fun xs => (xs.map z').sum) (Enc.list e) (Enc.list e') :=
  ⟨fun xs => and_congr (iff_of_eq (congrArg (· = n) (List.length_map ..))) (list_valid h.valid xs), list_zeros h.zeros,
    fun xs hx => list_out h.out xs hx.2⟩

theorem limSeq (n : Nat) (h : Sim i V V' z z' e e') :
    Sim i.list (fun xs => xs.length ≤ n ∧ ∀ x ∈ xs, V x) (fun xs => xs.length ≤ n ∧ ∀ x ∈ xs, V' x) (fun xs => (xs.map z).sum)
      (fun xs => (xs.map z').sum) (Enc.list e) (Enc.list e') :=
  ⟨fun xs => and_congr (iff_of_eq (congrArg (· ≤ n) (List.length_map ..))) (list_valid h.valid xs), list_zeros h.zeros,
    fun xs hx => list_out h.out xs hx.2⟩

theorem unpadded (V : α → Prop) (z : α → Nat) (e : Enc α) : Sim (Iso.refl α) V V z z (Enc.padded 0 e) e :=
  ⟨fun _ => Iff.rfl, fun _ => rfl, fun x _ => (Fmt.cat_nil (e x)).symm⟩

theorem newtype (V : α → Prop) (z : α → Nat) (e : Enc α) :
    Sim (Iso.unitR : Iso (α × Unit) α) (fun x => V x.1 ∧ True) V (fun x => z x.1 + 0) z (Enc.fcons e Enc.fnil) e :=
  ⟨fun _ => (and_iff_left trivial).symm, fun _ => rfl, fun x _ => (Fmt.cat_nil (e x.1)).symm⟩

theorem zero_sum : ∀ xs : List α, (xs.map fun _ => 0).sum = 0
  | [] => rfl
  | _ :: xs => by rw [List.map_cons, List.sum_cons, zero_sum xs]

theorem seqU8 : Sim Iso.byte.list (fun xs : List (BitVec 8) => ∀ x ∈ xs, True) (fun _ => True)
    (fun xs => (xs.map fun _ => 0).sum) (fun _ => 0) (Enc.list (Enc.int .u8)) Enc.bytes :=
  ⟨fun _ => ⟨fun _ _ _ => trivial, fun _ => trivial⟩, fun xs => (zero_sum xs).symm, fun x _ => Fmt.seqU8.wire x⟩

theorem optionUnit {zo : Option Unit → Nat} (hz : Counts (fun _ => 0) zo) :
    Sim Iso.optionUnit (fun o : Option Unit => ∀ x, o = some x → True) (fun _ => True) zo (fun _ => 0) (Enc.option Enc.unit) Enc.bool :=
  ⟨fun _ => ⟨fun _ _ _ => trivial, fun _ => trivial⟩, fun x => by
    cases x with
    | none => exact hz.1.symm
    | some x => exact (hz.2 x).symm, fun x _ => by cases x <;> rfl⟩

theorem optionArms (V : α → Prop) (z : α → Nat) (e : Enc α) {zo : Option α → Nat} (hz : Counts z zo) :
    Sim Iso.optionArms (fun o => ∀ x, o = some x → V x) (Sum.elim (fun _ => True) (Sum.elim V fun _ => True))
      zo (Sum.elim (fun _ => 0) (Sum.elim z fun _ => 0))
      (Enc.option e) (Enc.vcons 0 Enc.unit (Enc.vcons 255 e Enc.vnil) .u8) where
  valid o := by
    cases o with
    | none => exact ⟨fun _ _ h => (nomatch h), fun _ => trivial⟩
    | some x => exact ⟨fun h y hy => by cases hy; exact h, fun h => h x rfl⟩
  zeros o := by
    cases o with
    | none => exact hz.1.symm
    | some x => exact (hz.2 x).symm
  out o _ := by cases o <;> rfl

/-! ### arms -/

/-- The same for arms. -/
structure _root_.Verif.VSim (i : Iso α β) (V : α → Prop) (V' : β → Prop) (z : α → Nat) (z' : β → Nat) (e : TagWidth → Enc α)
    (e' : TagWidth → Enc β) : Prop where
  sim : ∀ w, Sim i V V' z z' (e w) (e' w)

theorem vcons (tag : Nat) {W : α' → Prop} {W' : β' → Prop} {y : α' → Nat} {y' : β' → Nat} {k : Iso α' β'} {f : TagWidth → Enc α'}
    {f' : TagWidth → Enc β'} (h : Sim i V V' z z' e e') (hs : VSim k W W' y y' f f') :
    VSim (i.sum k) (Sum.elim V W) (Sum.elim V' W') (Sum.elim z y) (Sum.elim z' y') (Enc.vcons tag e f) (Enc.vcons tag e' f') where
  sim w :=
    { valid := fun x => by
        rcases x with x | x
        · exact h.valid x
        · exact (hs.sim w).valid x
      zeros := fun x => by
        rcases x with x | x
        · exact h.zeros x
        · exact (hs.sim w).zeros x
      out := fun x hx => by
        rcases x with x | x
        · exact congrArg (Enc.cat (some (toBe w.len tag))) (h.out x hx)
        · exact (hs.sim w).out x hx }

theorem vswap (t t' : Nat) (V : α → Prop) (V' : β → Prop) (V'' : γ → Prop) (z : α → Nat) (z' : β → Nat) (z'' : γ → Nat) (a : Enc α)
    (b : Enc β) (c : TagWidth → Enc γ) :
    VSim Iso.swap (Sum.elim V (Sum.elim V' V'')) (Sum.elim V' (Sum.elim V V'')) (Sum.elim z (Sum.elim z' z''))
      (Sum.elim z' (Sum.elim z z'')) (Enc.vcons t a (Enc.vcons t' b c)) (Enc.vcons t' b (Enc.vcons t a c)) :=
  ⟨fun w => ⟨fun x => by rcases x with x | x | x <;> exact Iff.rfl, fun x => by rcases x with x | x | x <;> rfl,
    fun x _ => by rcases x with x | x | x <;> rfl⟩⟩

theorem units_out (cfg : Cfg) (w : TagWidth) : ∀ (tags : List Nat) (y : (Variants.units tags).Val),
    (Variants.units tags).out cfg w y = some (toBe w.len (Variants.unitsBack tags y).1) ∧ (Variants.units tags).Valid y ∧
    (Variants.units tags).zeros y = 0
  | [], y => nomatch y
  | t :: _, .inl () => ⟨Fmt.cat_nil (some (toBe w.len t)), trivial, rfl⟩
  | _ :: ts, .inr y => units_out cfg w ts y

theorem plainEnum (cfg : Cfg) (w : TagWidth) (tags : List Nat) (hn : tags.Nodup) :
    Sim (Variants.unitsIso tags hn) (fun _ => True) (Variants.units tags).Valid (fun _ => 0) (Variants.units tags).zeros (Enc.cstyle w tags)
      ((Variants.units tags).out cfg w) where
  valid x := ⟨fun _ => trivial, fun _ => (units_out cfg w tags _).2.1⟩
  zeros x := (units_out cfg w tags _).2.2
  out x _ := (units_out cfg w tags _).1.trans
    (congrArg (fun z : CEnum tags => some (toBe w.len z.1)) (Variants.units_back_to tags x))

/-! ### fields -/

theorem fcons {k : Iso α' β'} {W : α' → Prop} {W' : β' → Prop} {y : α' → Nat} {y' : β' → Nat} {f : Enc α'} {f' : Enc β'}
    (h : Sim i V V' z z' e e') (hs : Sim k W W' y y' f f') :
    Sim (i.prod k) (fun x => V x.1 ∧ W x.2) (fun x => V' x.1 ∧ W' x.2) (fun x => z x.1 + y x.2) (fun x => z' x.1 + y' x.2)
      (Enc.fcons e f) (Enc.fcons e' f') where
  valid x := and_congr (h.valid x.1) (hs.valid x.2)
  zeros x := by
    show z' (i.to x.1) + y' (k.to x.2) = _
    rw [h.zeros, hs.zeros]
  out x hx := by
    show Enc.cat (e' (i.to x.1)) (f' (k.to x.2)) = Enc.cat (e x.1) (f x.2)
    rw [h.out _ hx.1, hs.out _ hx.2]

theorem drop (V : α → Prop) (z : α → Nat) (e : Enc α) :
    Sim Iso.unitL (fun x => True ∧ V x.2) V (fun x => 0 + z x.2) z (Enc.fcons Enc.unit e) e :=
  ⟨fun _ => (and_iff_right trivial).symm, fun x => (Nat.zero_add _).symm, fun x _ => (Fmt.nil_cat (e x.2)).symm⟩

theorem fassoc (V : α → Prop) (V' : β → Prop) (V'' : γ → Prop) (z : α → Nat) (z' : β → Nat) (z'' : γ → Nat) (e : Enc α) (f : Enc β)
    (g : Enc γ) :
    Sim Iso.assoc (fun x => (V x.1.1 ∧ V' x.1.2) ∧ V'' x.2) (fun x => V x.1 ∧ V' x.2.1 ∧ V'' x.2.2)
      (fun x => z x.1.1 + z' x.1.2 + z'' x.2) (fun x => z x.1 + (z' x.2.1 + z'' x.2.2)) (Enc.fcons (Enc.fcons e f) g)
      (Enc.fcons e (Enc.fcons f g)) :=
  ⟨fun _ => and_assoc.symm, fun _ => (Nat.add_assoc _ _ _).symm, fun _ _ => (Fmt.cat_assoc _ _ _).symm⟩

end Sim

theorem Schema.counts_option (s : Schema) : Counts s.zeros (Schema.option s).zeros := ⟨rfl, fun _ => rfl⟩
theorem Schema.counts_nullable (s : Schema) : Counts s.zeros (Schema.nullable s).zeros := ⟨rfl, fun _ => rfl⟩

/-- What is announced is the same, if estimates are trusted and if not. -/
theorem Sim.lenOf (cfg : Cfg) {s s' : Schema} {i : Iso s.Val s'.Val} (h : Sim i s.Valid s'.Valid s.zeros s'.zeros (s.out cfg) (s'.out cfg))
    (x : s.Val) (b : Bytes) (hv : s.Valid x) (hb : s.out cfg x = some b) :
    (s'.codec cfg).estimate (i.to x) = (s.codec cfg).estimate x ∧
    Enc.lenOf cfg (s'.codec cfg).estimate (s'.out cfg) (i.to x) = Enc.lenOf cfg (s.codec cfg).estimate (s.out cfg) x := by
  have h1 := s.estimate_gap cfg x b hv hb
  have h2 := s'.estimate_gap cfg (i.to x) b ((h.valid x).mpr hv) ((h.out x hv).trans hb)
  rw [h.zeros] at h2
  have h3 : (s'.codec cfg).estimate (i.to x) = (s.codec cfg).estimate x := by omega
  exact ⟨h3, by simp only [Enc.lenOf, h3, h.out x hv]⟩

section
variable {ρ ρ' : Nat → Schema} {e : ∀ i, Iso (ρ i).Val (ρ' i).Val} (cfg : Cfg)

mutual
theorem Schema.fillSim (he : ∀ i, Sim (e i) (ρ i).Valid (ρ' i).Valid (ρ i).zeros (ρ' i).zeros ((ρ i).out cfg) ((ρ' i).out cfg)) :
    ∀ s : Schema, Sim (s.fillIso e) (s.fill ρ).Valid (s.fill ρ').Valid (s.fill ρ).zeros (s.fill ρ').zeros ((s.fill ρ).out cfg)
      ((s.fill ρ').out cfg)
  | .unit => .plain fun _ => rfl
  | .bool => .plain fun _ => rfl
  | .int _ => .plain fun _ => rfl
  | .f64 => .plain fun _ => rfl
  | .rangedInt _ _ _ => .plain fun _ => rfl
  | .rangedFloat min max => Sim.refl (Schema.rangedFloat min max).Valid _ _
  | .zarithN => Sim.refl Schema.zarithN.Valid Schema.zarithN.zeros Enc.zarithN
  | .zarithZ => .plain fun _ => rfl
  | .bytes => .plain fun _ => rfl
  | .vecU8 => .plain fun _ => rfl
  | .string => .plain fun _ => rfl
  | .fixedBytes _ => .plain fun _ => rfl
  | .fixedString _ => .plain fun _ => rfl
  | .option s => Sim.option (s.fill ρ).counts_option (s.fill ρ').counts_option (s.fillSim he)
  | .nullable s => Sim.nullable (s.fill ρ).counts_nullable (s.fill ρ').counts_nullable (s.fillSim he)
  | .dynamic S s => (s.fillSim he).dynamic S fun x b hv hb => ((s.fillSim he).lenOf cfg x b hv hb).2
  | .vpadded _ s => s.fillSim he
  | .padded n s => (s.fillSim he).padded n
  | .seq s => (s.fillSim he).seq
  | .fixSeq n s => (s.fillSim he).fixSeq n
  | .limSeq n s => (s.fillSim he).limSeq n
  | .autobox s => s.fillSim he
  | .hole i => he i
  | .cstyle _ _ => .plain fun _ => rfl
  | .data w vs => (vs.fillSim he).sim w
  | .record fs => fs.fillSim he
theorem Variants.fillSim (he : ∀ i, Sim (e i) (ρ i).Valid (ρ' i).Valid (ρ i).zeros (ρ' i).zeros ((ρ i).out cfg) ((ρ' i).out cfg)) :
    ∀ vs : Variants, VSim (vs.fillIso e) (vs.fill ρ).Valid (vs.fill ρ').Valid (vs.fill ρ).zeros (vs.fill ρ').zeros ((vs.fill ρ).out cfg)
      ((vs.fill ρ').out cfg)
  | .nil => ⟨fun _ => .plain fun _ => rfl⟩
  | .cons tag s vs => Sim.vcons tag (s.fillSim he) (vs.fillSim he)
theorem Fields.fillSim (he : ∀ i, Sim (e i) (ρ i).Valid (ρ' i).Valid (ρ i).zeros (ρ' i).zeros ((ρ i).out cfg) ((ρ' i).out cfg)) :
    ∀ fs : Fields, Sim (fs.fillIso e) (fs.fill ρ).Valid (fs.fill ρ').Valid (fs.fill ρ).zeros (fs.fill ρ').zeros ((fs.fill ρ).out cfg)
      ((fs.fill ρ').out cfg)
  | .nil => .plain fun _ => rfl
  | .cons s fs => (s.fillSim he).fcons (fs.fillSim he)
end

theorem Variants.units_fillSim (ρ : Nat → Schema) : ∀ tags : List Nat,
    VSim (Variants.unitsFill ρ tags) (Variants.units tags).Valid ((Variants.units tags).fill ρ).Valid (Variants.units tags).zeros
      ((Variants.units tags).fill ρ).zeros ((Variants.units tags).out cfg) (((Variants.units tags).fill ρ).out cfg)
  | [] => ⟨fun _ => .plain fun _ => rfl⟩
  | t :: ts => Sim.vcons t (.plain fun _ => rfl) (units_fillSim ρ ts)

theorem Fields.append_fillSim (ρ : Nat → Schema) : ∀ fs gs : Fields,
    Sim (fs.appendFill ρ gs) (fun x => (fs.fill ρ).Valid x.1 ∧ (gs.fill ρ).Valid x.2) ((fs.append gs).fill ρ).Valid
      (fun x => (fs.fill ρ).zeros x.1 + (gs.fill ρ).zeros x.2) ((fs.append gs).fill ρ).zeros
      (Enc.fcons ((fs.fill ρ).out cfg) ((gs.fill ρ).out cfg)) (((fs.append gs).fill ρ).out cfg)
  | .nil, gs => Sim.drop (gs.fill ρ).Valid (gs.fill ρ).zeros ((gs.fill ρ).out cfg)
  | .cons s fs, gs =>
    Sim.trans (Sim.fassoc (s.fill ρ).Valid (fs.fill ρ).Valid (gs.fill ρ).Valid (s.fill ρ).zeros (fs.fill ρ).zeros (gs.fill ρ).zeros
      ((s.fill ρ).out cfg) ((fs.fill ρ).out cfg) ((gs.fill ρ).out cfg))
      ((Sim.refl (s.fill ρ).Valid (s.fill ρ).zeros ((s.fill ρ).out cfg)).fcons (append_fillSim ρ fs gs))

theorem Schema.reflSim (ρ : Nat → Schema) (i : Nat) :
    Sim (Iso.refl (ρ i).Val) (ρ i).Valid (ρ i).Valid (ρ i).zeros (ρ i).zeros ((ρ i).out cfg) ((ρ i).out cfg) := .refl _ _ _

end

variable (cfg : Cfg)

mutual
theorem Refactor.fillSim : ∀ {s s' : Schema} (h : Refactor s s') {ρ ρ' : Nat → Schema} {e : ∀ i, Iso (ρ i).Val (ρ' i).Val}
    (_ : ∀ i, Sim (e i) (ρ i).Valid (ρ' i).Valid (ρ i).zeros (ρ' i).zeros ((ρ i).out cfg) ((ρ' i).out cfg)),
    Sim (h.fillIso e) (s.fill ρ).Valid (s'.fill ρ').Valid (s.fill ρ).zeros (s'.fill ρ').zeros ((s.fill ρ).out cfg) ((s'.fill ρ').out cfg)
  | _, _, .refl s, _, _, _, he => s.fillSim cfg he
  | _, _, .symm h, _, _, _, he => (h.fillSim fun i => (he i).symm).symm
  | _, _, .trans h h', _, ρ', _, he => (h.fillSim he).trans (h'.fillSim (Schema.reflSim cfg ρ'))
  | _, _, .autobox s, _, _, _, he => s.fillSim cfg he
  | _, _, .unpadded s, ρ, _, _, he => (Sim.unpadded (s.fill ρ).Valid (s.fill ρ).zeros ((s.fill ρ).out cfg)).trans (s.fillSim cfg he)
  | _, _, .newtype s, ρ, _, _, he => (Sim.newtype (s.fill ρ).Valid (s.fill ρ).zeros ((s.fill ρ).out cfg)).trans (s.fillSim cfg he)
  | _, _, .vecU8, _, _, _, _ => .plain fun _ => rfl
  | _, _, .seqU8, _, _, _, _ => Sim.seqU8
  | _, _, .boolEnum, _, _, _, _ => .plain Fmt.boolEnum.wire
  | _, _, .optionUnit, _, _, _, _ => Sim.optionUnit ⟨rfl, fun _ => rfl⟩
  | _, _, .optionArms s, _, ρ', _, he =>
    ((s.fillSim cfg he).option (zo' := (Schema.option (s.fill ρ')).zeros) ⟨rfl, fun _ => rfl⟩ ⟨rfl, fun _ => rfl⟩).trans
      (Sim.optionArms (s.fill ρ').Valid (s.fill ρ').zeros ((s.fill ρ').out cfg) ⟨rfl, fun _ => rfl⟩)
  | _, _, .plainEnum w tags h, _, ρ', _, _ => (Sim.plainEnum cfg w tags h).trans ((Variants.units_fillSim cfg ρ' tags).sim w)
  | _, _, .fullRange t h h', _, _, _, _ => .plain (Fmt.fullRange t h h').wire
  | _, _, .inOption h, _, _, _, he => (h.fillSim he).option ⟨rfl, fun _ => rfl⟩ ⟨rfl, fun _ => rfl⟩
  | _, _, .inNullable h, _, _, _, he => (h.fillSim he).nullable ⟨rfl, fun _ => rfl⟩ ⟨rfl, fun _ => rfl⟩
  | _, _, .inDynamic S h, _, _, _, he => (h.fillSim he).dynamic S fun x b hv hb => ((h.fillSim he).lenOf cfg x b hv hb).2
  | _, _, .inVpadded _ h, _, _, _, he => h.fillSim he
  | _, _, .inPadded n h, _, _, _, he => (h.fillSim he).padded n
  | _, _, .inSeq h, _, _, _, he => (h.fillSim he).seq
  | _, _, .inFixSeq n h, _, _, _, he => (h.fillSim he).fixSeq n
  | _, _, .inLimSeq n h, _, _, _, he => (h.fillSim he).limSeq n
  | _, _, .inAutobox h, _, _, _, he => h.fillSim he
  | _, _, .inData w h, _, _, _, he => (h.fillSim he).sim w
  | _, _, .inRecord h, _, _, _, he => h.fillSim he
theorem VRefactor.fillSim : ∀ {vs vs' : Variants} (h : VRefactor vs vs') {ρ ρ' : Nat → Schema} {e : ∀ i, Iso (ρ i).Val (ρ' i).Val}
    (_ : ∀ i, Sim (e i) (ρ i).Valid (ρ' i).Valid (ρ i).zeros (ρ' i).zeros ((ρ i).out cfg) ((ρ' i).out cfg)),
    VSim (h.fillIso e) (vs.fill ρ).Valid (vs'.fill ρ').Valid (vs.fill ρ).zeros (vs'.fill ρ').zeros ((vs.fill ρ).out cfg)
      ((vs'.fill ρ').out cfg)
  | _, _, .refl vs, _, _, _, he => vs.fillSim cfg he
  | _, _, .symm h, _, _, _, he => ⟨fun w => ((h.fillSim fun i => (he i).symm).sim w).symm⟩
  | _, _, .trans h h', _, ρ', _, he => ⟨fun w => ((h.fillSim he).sim w).trans ((h'.fillSim (Schema.reflSim cfg ρ')).sim w)⟩
  | _, _, .cons tag h hs, _, _, _, he => Sim.vcons tag (h.fillSim he) (hs.fillSim he)
  | _, _, .swap t t' s s' vs h, _, ρ', _, he =>
    ⟨fun w => ((Sim.vcons t (s.fillSim cfg he) (Sim.vcons t' (s'.fillSim cfg he) (vs.fillSim cfg he))).sim w).trans
      ((Sim.vswap t t' (s.fill ρ').Valid (s'.fill ρ').Valid (vs.fill ρ').Valid (s.fill ρ').zeros (s'.fill ρ').zeros (vs.fill ρ').zeros
        ((s.fill ρ').out cfg) ((s'.fill ρ').out cfg) ((vs.fill ρ').out cfg)).sim w)⟩
theorem FRefactor.fillSim : ∀ {fs fs' : Fields} (h : FRefactor fs fs') {ρ ρ' : Nat → Schema} {e : ∀ i, Iso (ρ i).Val (ρ' i).Val}
    (_ : ∀ i, Sim (e i) (ρ i).Valid (ρ' i).Valid (ρ i).zeros (ρ' i).zeros ((ρ i).out cfg) ((ρ' i).out cfg)),
    Sim (h.fillIso e) (fs.fill ρ).Valid (fs'.fill ρ').Valid (fs.fill ρ).zeros (fs'.fill ρ').zeros ((fs.fill ρ).out cfg)
      ((fs'.fill ρ').out cfg)
  | _, _, .refl fs, _, _, _, he => fs.fillSim cfg he
  | _, _, .symm h, _, _, _, he => (h.fillSim fun i => (he i).symm).symm
  | _, _, .trans h h', _, ρ', _, he => (h.fillSim he).trans (h'.fillSim (Schema.reflSim cfg ρ'))
  | _, _, .cons h hs, _, _, _, he => (h.fillSim he).fcons (hs.fillSim he)
  | _, _, .drop fs, ρ, _, _, he => (Sim.drop (fs.fill ρ).Valid (fs.fill ρ).zeros ((fs.fill ρ).out cfg)).trans (fs.fillSim cfg he)
  | _, _, .flatten fs gs, _, ρ', _, he => ((fs.fillSim cfg he).fcons (gs.fillSim cfg he)).trans (Fields.append_fillSim cfg ρ' fs gs)
end

theorem Decls.sim {d d' : Decls} (w : ∀ i, Refactor (d.body i) (d'.body i)) : ∀ n i : Nat,
    Sim (Decls.iso w n i) (d.unfold n i).Valid (d'.unfold n i).Valid (d.unfold n i).zeros (d'.unfold n i).zeros
      ((d.unfold n i).out cfg) ((d'.unfold n i).out cfg)
  | 0, _ => Sim.refl (fun _ => True) (fun _ => 0) Enc.hole
  | n + 1, i => (w i).fillSim cfg (sim w n)

theorem Fields.append_sim : ∀ fs gs : Fields,
    Sim (fs.appendIso gs) (fun x => fs.Valid x.1 ∧ gs.Valid x.2) (fs.append gs).Valid (fun x => fs.zeros x.1 + gs.zeros x.2)
      (fs.append gs).zeros (Enc.fcons (fs.out cfg) (gs.out cfg)) ((fs.append gs).out cfg)
  | .nil, gs => Sim.drop gs.Valid gs.zeros (gs.out cfg)
  | .cons s fs, gs =>
    Sim.trans (Sim.fassoc s.Valid fs.Valid gs.Valid s.zeros fs.zeros gs.zeros (s.out cfg) (fs.out cfg) (gs.out cfg))
      ((Sim.refl s.Valid s.zeros (s.out cfg)).fcons (append_sim fs gs))

mutual
theorem Refactor.sim : ∀ {s s' : Schema} (h : Refactor s s'),
    Sim h.iso s.Valid s'.Valid s.zeros s'.zeros (s.out cfg) (s'.out cfg)
  | _, _, .refl s => Sim.refl s.Valid s.zeros (s.out cfg)
  | _, _, .symm h => h.sim.symm
  | _, _, .trans h h' => h.sim.trans h'.sim
  | _, _, .autobox s => Sim.refl s.Valid s.zeros (s.out cfg)
  | _, _, .unpadded s => Sim.unpadded s.Valid s.zeros (s.out cfg)
  | _, _, .newtype s => Sim.newtype s.Valid s.zeros (s.out cfg)
  | _, _, .vecU8 => .plain fun _ => rfl
  | _, _, .seqU8 => Sim.seqU8
  | _, _, .boolEnum => .plain Fmt.boolEnum.wire
  | _, _, .optionUnit => Sim.optionUnit ⟨rfl, fun _ => rfl⟩
  | _, _, .optionArms s => Sim.optionArms s.Valid s.zeros (s.out cfg) ⟨rfl, fun _ => rfl⟩
  | _, _, .plainEnum w tags h => Sim.plainEnum cfg w tags h
  | _, _, .fullRange t h h' => .plain (Fmt.fullRange t h h').wire
  | _, _, .inOption h => h.sim.option ⟨rfl, fun _ => rfl⟩ ⟨rfl, fun _ => rfl⟩
  | _, _, .inNullable h => h.sim.nullable ⟨rfl, fun _ => rfl⟩ ⟨rfl, fun _ => rfl⟩
  | _, _, .inDynamic S h => h.sim.dynamic S fun x b hv hb => (h.sim.lenOf cfg x b hv hb).2
  | _, _, .inVpadded _ h => h.sim
  | _, _, .inPadded n h => h.sim.padded n
  | _, _, .inSeq h => h.sim.seq
  | _, _, .inFixSeq n h => h.sim.fixSeq n
  | _, _, .inLimSeq n h => h.sim.limSeq n
  | _, _, .inAutobox h => h.sim
  | _, _, .inData w h => h.sim.sim w
  | _, _, .inRecord h => h.sim
theorem VRefactor.sim : ∀ {vs vs' : Variants} (h : VRefactor vs vs'),
    VSim h.iso vs.Valid vs'.Valid vs.zeros vs'.zeros (vs.out cfg) (vs'.out cfg)
  | _, _, .refl vs => ⟨fun w => Sim.refl vs.Valid vs.zeros (vs.out cfg w)⟩
  | _, _, .symm h => ⟨fun w => (h.sim.sim w).symm⟩
  | _, _, .trans h h' => ⟨fun w => (h.sim.sim w).trans (h'.sim.sim w)⟩
  | _, _, .cons tag h hs => Sim.vcons tag h.sim hs.sim
  | _, _, .swap t t' s s' vs _ =>
    Sim.vswap t t' s.Valid s'.Valid vs.Valid s.zeros s'.zeros vs.zeros (s.out cfg) (s'.out cfg) (vs.out cfg)
theorem FRefactor.sim : ∀ {fs fs' : Fields} (h : FRefactor fs fs'),
    Sim h.iso fs.Valid fs'.Valid fs.zeros fs'.zeros (fs.out cfg) (fs'.out cfg)
  | _, _, .refl fs => Sim.refl fs.Valid fs.zeros (fs.out cfg)
  | _, _, .symm h => h.sim.symm
  | _, _, .trans h h' => h.sim.trans h'.sim
  | _, _, .cons h hs => h.sim.fcons hs.sim
  | _, _, .drop fs => Sim.drop fs.Valid fs.zeros (fs.out cfg)
  | _, _, .flatten fs gs => Fields.append_sim cfg fs gs
end

end Verif
