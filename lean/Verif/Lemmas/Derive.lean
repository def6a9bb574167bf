import Verif.Derive
import Verif.Lemmas.ErrorText
/-
Lemmas on what the derive macros generate.
-/
namespace Verif
namespace Derive

theorem W.assoc {τ : Type} (a b c : W τ) : W.add (W.add a b) c = W.add a (W.add b c) := by
  funext t
  simp only [W.add]
  cases a t with
  | none => rfl
  | some p =>
    obtain ⟨n, t1⟩ := p
    dsimp only
    cases b t1 with
    | none => rfl
    | some q =>
      obtain ⟨m, t2⟩ := q
      dsimp only
      cases c t2 with
      | none => rfl
      | some r => simp only [Nat.add_assoc]

theorem W.zero_left {τ : Type} (a : W τ) : W.add W.zero a = a := by
  funext t
  simp only [W.add, W.zero]
  cases a t with
  | none => rfl
  | some p => simp only [Nat.zero_add]

/-- The same sum, added from the right. -/
def rightSum {τ : Type} : List (W τ) → W τ → W τ
  | [], z => z
  | w :: ws, z => W.add w (rightSum ws z)

theorem leftSum_eq {τ : Type} (z : W τ) : (ws : List (W τ)) → (acc : W τ) →
    leftSum acc (ws ++ [z]) = W.add acc (rightSum ws z)
  | [], _ => rfl
  | w :: ws, acc => (leftSum_eq z ws (W.add acc w)).trans (W.assoc _ _ _)

theorem sumThen_eq {τ : Type} (z : W τ) : (ws : List (W τ)) → sumThen ws z = rightSum ws z
  | [] => rfl
  | w :: ws => leftSum_eq z ws w

theorem write_contents (cfg : Cfg) {τ : Type} (T : TargetOps τ) (z : W τ) : (tys : List Ty) → (x : (fields tys).Val) →
    rightSum ((contents tys x).map fun a => (a.1.codec cfg).write T a.2) z =
      W.add (((fields tys).codec cfg).write T x) z
  | [], _ => (W.zero_left z).symm
  | ty :: tys, x => (congrArg (W.add _) (write_contents cfg T z tys x.2)).trans (W.assoc _ _ _).symm

theorem unknown_contents (cfg : Cfg) : (tys : List Ty) → (x : (fields tys).Val) →
    ((contents tys x).map fun a => (a.1.codec cfg).unknown a.2).sum = ((fields tys).codec cfg).unknown x
  | [], _ => rfl
  | ty :: tys, x => (List.sum_cons).trans (congrArg (_ + ·) (unknown_contents cfg tys x.2))

theorem length_contents : (tys : List Ty) → (x : (fields tys).Val) → (contents tys x).length = tys.length
  | [], _ => rfl
  | _ :: tys, x => congrArg (· + 1) (length_contents tys x.2)

theorem map_range {α β : Type} (f : Option α → β) (l : List α) :
    (List.range l.length).map (fun i => f l[i]?) = l.map fun a => f (some a) := by
  apply List.ext_getElem?
  intro i
  rw [List.getElem?_map, List.getElem?_map]
  by_cases h : i < l.length
  · rw [List.getElem?_range h]
    simp [h]
  · simp [Nat.le_of_not_lt h]

theorem find_of_mem {α : Type} {x : Ident} {a : α} : {l : List (Ident × α)} → (l.map (·.1)).Nodup → (x, a) ∈ l →
    find x l = some a
  | (y, b) :: l, hn, h => by
    rw [List.map_cons, List.nodup_cons] at hn
    rcases List.mem_cons.1 h with h | h
    · cases h
      exact if_pos rfl
    · have hne : x ≠ y := fun e => hn.1 (List.mem_map.2 ⟨_, h, e⟩)
      exact (if_neg hne).trans (find_of_mem hn.2 h)

theorem find_zip {α β : Type} (f : Option α → β) (ks : List Ident) (vs : List α) (hn : ks.Nodup) (hl : ks.length = vs.length) :
    ks.map (fun x => f (find x (ks.zip vs))) = vs.map fun a => f (some a) := by
  apply List.ext_getElem (by simp [hl])
  intro i h1 h2
  have hi : i < ks.length := by simpa using h1
  simp only [List.getElem_map]
  congr 1
  apply find_of_mem
  · rw [List.map_fst_zip (by omega)]
    exact hn
  · have : (ks.zip vs)[i]'(by simp [← hl]; exact hi) = (ks[i], vs[i]'(by omega)) := by simp
    rw [← this]
    exact List.getElem_mem _

theorem finds_zip {α : Type} {ks : List Ident} {vs : List α} (hn : ks.Nodup) (hl : ks.length = vs.length) :
    finds (ks.zip vs) ks = some vs := by
  have go : ∀ (l : List (Ident × α)) (ks : List Ident) (vs : List α),
      ks.map (fun x => find x l) = vs.map some → finds l ks = some vs := by
    intro l ks
    induction ks with
    | nil =>
      intro vs h
      cases vs with
      | nil => rfl
      | cons => cases h
    | cons k ks ih =>
      intro vs h
      cases vs with
      | nil => cases h
      | cons v vs =>
        rw [List.map_cons, List.map_cons, List.cons.injEq] at h
        simp only [finds, h.1, ih vs h.2]
  exact go _ _ _ (find_zip id ks vs hn hl)

theorem pos_nodup (n : Nat) : (pos n).Nodup := by
  rw [pos, List.nodup_iff_pairwise_ne, List.pairwise_map]
  exact List.Pairwise.imp (fun hne e => hne (decimal_inj (List.append_cancel_left e)))
    (List.nodup_iff_pairwise_ne.1 List.nodup_range)

theorem pos_length (n : Nat) : (pos n).length = n := by simp [pos]

theorem known_fields (cfg : Cfg) : (tys : List Ty) →
    ((fields tys).codec cfg).known = (somes (tys.map fun ty => (ty.schema.codec cfg).known)).map List.sum
  | [] => rfl
  | ty :: tys => by
    have h := known_fields cfg tys
    show (match (ty.schema.codec cfg).known, ((fields tys).codec cfg).known with
      | some m, some n => some (m + n)
      | _, _ => none) = _
    rw [h, List.map_cons]
    cases (ty.schema.codec cfg).known with
    | none => rfl
    | some m =>
      simp only [somes]
      cases somes (tys.map fun ty => (ty.schema.codec cfg).known) with
      | none => rfl
      | some ns => simp

theorem length_somes : {l : List (Option Nat)} → {ns : List Nat} → somes l = some ns → ns.length = l.length
  | [], _, h => by cases h; rfl
  | some n :: l, ns, h => by
    simp only [somes] at h
    cases hs : somes l with
    | none => rw [hs] at h; cases h
    | some ms =>
      rw [hs] at h
      cases h
      exact congrArg (· + 1) (length_somes hs)

theorem finds_unit {ks : List Ident} (hn : ks.Nodup) : (finds (ks.map fun x => (x, ())) ks).isSome = true := by
  have : ks.map (fun x => (x, ())) = ks.zip (List.replicate ks.length ()) := by
    clear hn
    induction ks with
    | nil => rfl
    | cons k ks ih => simp only [List.map_cons, List.length_cons, List.replicate_succ, List.zip_cons_cons, ih]
  rw [this, finds_zip hn (by simp)]
  rfl

theorem call_eval (cfg : Cfg) (xs : List Ident) (tys : List Ty) (hn : xs.Nodup) (hl : xs.length = tys.length) :
    (Known.call xs xs xs xs tys).eval cfg = some ((fields tys).codec cfg).known := by
  have hf := finds_zip (vs := tys.map fun ty => (ty.schema.codec cfg).known) hn (by simpa using hl)
  rw [Known.eval, if_pos ⟨hn, hl, hn, rfl⟩, hf, known_fields]
  dsimp only
  cases h : somes (tys.map fun ty => (ty.schema.codec cfg).known) with
  | none => simp only [finds_unit hn]; rfl
  | some ns =>
    have := length_somes h
    simp only [List.length_map] at this
    simp only [finds_zip (vs := ns) hn (by omega)]
    rfl

/-! ### what macros generate has the members it names -/

theorem has_range (tys : List Ty) : ((List.range tys.length).map Member.index).all (Body.unnamed tys).has = true := by
  rw [List.all_eq_true]
  intro m hm
  obtain ⟨i, hi, rfl⟩ := List.mem_map.1 hm
  exact decide_eq_true (List.mem_range.1 hi)

theorem find_isSome {α : Type} {x : Ident} : {l : List (Ident × α)} → x ∈ l.map (·.1) → (find x l).isSome = true
  | (y, b) :: l, h => by
    by_cases e : x = y
    · simp only [find, if_pos e]; rfl
    · simp only [find, if_neg e]
      rcases List.mem_cons.1 h with h | h
      · exact absurd h e
      · exact find_isSome h

theorem has_names (fs : List (Ident × Ty)) : (fs.map fun f => Member.ident f.1).all (Body.named fs).has = true := by
  rw [List.all_eq_true]
  intro m hm
  obtain ⟨f, hf, rfl⟩ := List.mem_map.1 hm
  exact find_isSome (List.mem_map_of_mem hf)

theorem get_unnamed {β : Type} (f : Option Any → β) (tys : List Ty) (x : (Body.unnamed tys).Val) :
    ((List.range tys.length).map Member.index).map (fun m => f ((Body.unnamed tys).get x m)) =
      (contents tys x).map fun a => f (some a) := by
  rw [← length_contents tys x, List.map_map]
  exact map_range f (contents tys x)

theorem get_named {β : Type} (f : Option Any → β) (fs : List (Ident × Ty)) (hn : (fs.map (·.1)).Nodup)
    (x : (Body.named fs).Val) : (fs.map fun g => Member.ident g.1).map (fun m => f ((Body.named fs).get x m)) =
      (contents (Body.named fs).tys x).map fun a => f (some a) := by
  rw [List.map_map]
  have := find_zip f (fs.map (·.1)) (contents (Body.named fs).tys x) hn (by rw [length_contents]; simp [Body.tys])
  rw [List.map_map] at this
  exact this

/-! ### building the value -/

theorem at_self (s : Schema) (x : s.Val) : Any.at ⟨s, x⟩ s = some x := dif_pos rfl

theorem tuple_contents : (tys : List Ty) → (x : (fields tys).Val) → tuple tys (contents tys x) = some x
  | [], _ => rfl
  | ty :: tys, x => by
    simp only [tuple, contents, at_self, tuple_contents tys x.2]
    rfl

theorem braces_contents (inits : List (Ident × Any)) : (fs : List (Ident × Ty)) → (x : (fields (fs.map (·.2))).Val) →
    (∀ p ∈ (fs.map (·.1)).zip (contents (fs.map (·.2)) x), find p.1 inits = some p.2) → braces inits fs = some x
  | [], _, _ => rfl
  | (y, ty) :: fs, x, h => by
    have h1 := h (y, ⟨ty.schema, x.1⟩) (List.mem_cons_self ..)
    have h2 := braces_contents inits fs x.2 fun p hp => h p (List.mem_cons_of_mem _ hp)
    simp only [braces]
    dsimp only at h1
    rw [h1, h2]
    simp only [Option.bind_some, at_self]
    rfl

theorem arguments_eq (cfg : Cfg) {σ : Type} (P : ParserOps σ) {β : Type} : (tys : List Ty) →
    (g : List Any → σ → Out σ ParseError β) → (st : σ) → Out.bind (arguments cfg P tys st) g =
      Out.bind (((fields tys).codec cfg).parse P st) fun x => g (contents tys x)
  | [], _, _ => rfl
  | ty :: tys, g, st => by
    show Out.bind (Out.bind ((ty.schema.codec cfg).parse P st) fun a s => Out.bind (arguments cfg P tys s) fun as s =>
        Out.ok (⟨ty.schema, a⟩ :: as) s) g =
      Out.bind (Out.bind ((ty.schema.codec cfg).parse P st) fun a s =>
        Out.bind (((fields tys).codec cfg).parse P s) fun b s => Out.ok (a, b) s) fun x => g (contents (ty :: tys) x)
    cases (ty.schema.codec cfg).parse P st with
    | ok a s =>
      have h := arguments_eq cfg P tys (fun as => g (⟨ty.schema, a⟩ :: as)) s
      simp only [Out.bind_ok]
      have l : ∀ o : Out σ ParseError (List Any), Out.bind (Out.bind o fun as s => Out.ok (⟨ty.schema, a⟩ :: as) s) g =
          Out.bind o fun as => g (⟨ty.schema, a⟩ :: as) := fun o => by cases o <;> rfl
      have r : ∀ o : Out σ ParseError (fields tys).Val,
          Out.bind (Out.bind o fun b s => Out.ok ((a, b) : (fields (ty :: tys)).Val) s) (fun x => g (contents (ty :: tys) x)) =
          Out.bind o fun x => g (⟨ty.schema, a⟩ :: contents tys x) := fun o => by cases o <;> rfl
      exact (l _).trans (h.trans (r _).symm)
    | err => rfl
    | panic => rfl
    | ub => rfl
    | diverge => rfl

end Derive
end Verif
