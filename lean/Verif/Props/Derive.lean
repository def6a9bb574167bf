import Verif.Lemmas.Derive
/-
C88: what the derive macros generate.  However a struct is declared (unit, tuple-like or with named fields, whatever the
names), the code that `#[derive(Encode)]`, `#[derive(Decode)]` and `#[derive(Estimable)]` generate for it does what the
codec of the record with the same field types does, on every target and every parser; so all that is proved of records
(C30, C51 and others) is proved of derived code.
-/
namespace Verif.Props
open Derive

/-- C88, `#[derive(Encode)]`: the derived `write_to` writes the fields in order of declaration, whatever they are called. -/
theorem C88_encode (cfg : Cfg) (b : Body) (hn : b.labels.Nodup) :
    Derive.writeTo cfg ⟨0, .struct b⟩ b = some fun {_} T x => ((Schema.record (fields b.tys)).codec cfg).write T x := by
  have key : ∀ (ms : List Member), ms.all b.has = true → (∀ {β : Type} (f : Option Any → β) (x : b.Val),
      ms.map (fun m => f (b.get x m)) = (contents b.tys x).map fun a => f (some a)) →
      Derive.encode ⟨0, .struct b⟩ = some ms →
      Derive.writeTo cfg ⟨0, .struct b⟩ b = some fun {_} T x => ((Schema.record (fields b.tys)).codec cfg).write T x := by
    intro ms h1 h2 h3
    rw [Derive.writeTo, h3]
    dsimp only
    rw [if_pos ⟨rfl, h1⟩]
    congr 1
    funext τ T x
    have := h2 (fun o => match o with
      | some a => (a.1.codec cfg).write T a.2
      | none => fun _ => none) x
    exact (congrArg (fun l => sumThen l (W.resolveZero T)) this).trans
      ((sumThen_eq _ _).trans (write_contents cfg T _ b.tys x))
  cases b with
  | unit => exact key [] rfl (fun _ _ => rfl) rfl
  | unnamed tys => exact key _ (has_range tys) (fun f x => get_unnamed f tys x) rfl
  | named fs => exact key _ (has_names fs) (fun f x => get_named f fs hn x) rfl

/-- C88, `#[derive(Decode)]`: the derived `parse` reads the fields in order of declaration and puts each where it
belongs, if no field has a type that names `P`. -/
theorem C88_decode_partial (cfg : Cfg) (b : Body) (hn : b.labels.Nodup) (hp : ∀ ty ∈ b.tys, text! "P" ∉ ty.names) :
    Derive.parse cfg ⟨0, .struct b⟩ b = some fun {_} P => ((Schema.record (fields b.tys)).codec cfg).parse P := by
  have hc : captured b.tys = false := by
    rw [captured, List.any_eq_false]
    intro ty hty
    simpa using hp ty hty
  cases b with
  | unit => rfl
  | unnamed tys =>
    simp only [Derive.parse, Derive.decode]
    rw [if_neg (by simp), if_pos ⟨trivial, hc⟩]
    congr 1
    funext σ P st
    refine (arguments_eq cfg P tys _ st).trans ?_
    simp only [Body.unnamed, tuple_contents, sure]
    show Out.bind _ _ = ((fields tys).codec cfg).parse P st
    cases ((fields tys).codec cfg).parse P st <;> rfl
  | named fs =>
    simp only [Derive.parse, Derive.decode]
    have hfind : ∀ f ∈ fs, find f.1 fs = some f.2 := fun f hf => find_of_mem hn hf
    rw [if_neg (by simp), if_pos ⟨hn, fun f hf => by rw [hfind f hf]; rfl, fun f hf => by rw [hfind f hf]; rfl, hc⟩]
    congr 1
    funext σ P st
    refine (arguments_eq cfg P (fs.map (·.2)) _ st).trans ?_
    have hb : ∀ x, braces ((fs.map (·.1)).zip (contents (fs.map (·.2)) x)) fs = some x := fun x =>
      braces_contents _ fs x fun p hp => find_of_mem
        (by rw [List.map_fst_zip (by rw [length_contents]; simp)]; exact hn) hp
    simp only [hb, sure]
    show Out.bind _ _ = ((fields (fs.map (·.2))).codec cfg).parse P st
    cases ((fields (fs.map (·.2))).codec cfg).parse P st <;> rfl

/-- C88, `#[derive(Estimable)]`, also where it implements `FixedLength` instead. -/
theorem C88_estimate (cfg : Cfg) (b : Body) (hn : b.labels.Nodup) : Derive.estimate cfg ⟨0, .struct b⟩ b =
    some (((Schema.record (fields b.tys)).codec cfg).known, ((Schema.record (fields b.tys)).codec cfg).unknown) := by
  have key : ∀ (xs : List Ident) (ms : List Member), xs.Nodup → xs.length = b.tys.length → ms ≠ [] →
      ms.all b.has = true → (∀ {β : Type} (f : Option Any → β) (x : b.Val),
      ms.map (fun m => f (b.get x m)) = (contents b.tys x).map fun a => f (some a)) →
      Derive.estimable ⟨0, .struct b⟩ = some (.estimable (.call xs xs xs xs b.tys) (.sum ms)) →
      Derive.estimate cfg ⟨0, .struct b⟩ b =
        some (((Schema.record (fields b.tys)).codec cfg).known, ((Schema.record (fields b.tys)).codec cfg).unknown) := by
    intro xs ms h1 h2 h3 h4 h5 h6
    rw [Derive.estimate, if_pos rfl, h6]
    simp only [Length.eval, call_eval cfg xs b.tys h1 h2, Unknown.eval]
    rw [if_pos ⟨h4, h3⟩]
    dsimp only
    congr 2
    funext x
    have := h5 (fun o => match o with
      | some a => (a.1.codec cfg).unknown a.2
      | none => 0) x
    exact (congrArg List.sum this).trans (unknown_contents cfg b.tys x)
  cases b with
  | unit => rfl
  | unnamed tys =>
    match tys with
    | [] => rfl
    | [ty] =>
      simp only [Derive.estimate, Derive.estimable, if_pos, Length.eval, Known.eval, Unknown.eval]
      rw [if_pos ⟨rfl, rfl⟩]
      dsimp only
      congr 1
      apply Prod.ext
      · show (ty.schema.codec cfg).known = match (ty.schema.codec cfg).known, some 0 with
          | some m, some n => some (m + n)
          | _, _ => none
        cases (ty.schema.codec cfg).known <;> rfl
      · rfl
    | ty :: ty' :: tys =>
      exact key (pos _) _ (pos_nodup _) (pos_length _) (by simp [List.range_succ]) (has_range _)
        (fun f x => get_unnamed f _ x) rfl
  | named fs =>
    match fs with
    | [] => rfl
    | f :: fs =>
      exact key ((f :: fs).map Prod.fst) ((f :: fs).map fun f => .ident f.1) hn (by simp [Body.tys]) (by simp)
        (has_names (f :: fs)) (fun g x => get_named g (f :: fs) hn x) rfl

/-- C88, `#[derive(FixedLength)]`: `LEN` is the sum of the lengths of the fields, and it is the `KNOWN` that
`#[derive(Estimable)]` would have given. -/
theorem C88_fixed (cfg : Cfg) (b : Body) (hk : ∀ ty ∈ b.tys, ∃ n, ty.len = some n ∧ (ty.schema.codec cfg).known = some n) :
    ∃ n, Derive.len ⟨0, .struct b⟩ = some n ∧ ((Schema.record (fields b.tys)).codec cfg).known = some n := by
  have go : ∀ tys : List Ty, (∀ ty ∈ tys, ∃ n, ty.len = some n ∧ (ty.schema.codec cfg).known = some n) →
      ∃ n, lens tys = some n ∧ ((fields tys).codec cfg).known = some n := by
    intro tys
    induction tys with
    | nil => exact fun _ => ⟨0, rfl, rfl⟩
    | cons ty tys ih =>
      intro h
      obtain ⟨m, h1, h2⟩ := h ty (List.mem_cons_self ..)
      obtain ⟨n, h3, h4⟩ := ih fun t ht => h t (List.mem_cons_of_mem _ ht)
      refine ⟨m + n, by simp only [lens, h1, h3], ?_⟩
      show (match (ty.schema.codec cfg).known, ((fields tys).codec cfg).known with
        | some m, some n => some (m + n)
        | _, _ => none) = _
      rw [h2, h4]
  have hl : Derive.len ⟨0, .struct b⟩ = lens b.tys := by
    cases b with
    | unit => rfl
    | unnamed tys => cases tys <;> rfl
    | named fs => cases fs <;> rfl
  rw [hl]
  exact go b.tys hk

/-- C88, `#[derive(FixedLength)]`: the blanket implementations then estimate every value at what `#[derive(Estimable)]` would. -/
theorem C88_fixed_estimate (cfg : Cfg) (b : Body)
    (hk : ∀ ty ∈ b.tys, ∃ n, ty.len = some n ∧ (ty.schema.codec cfg).known = some n ∧ ∀ x, (ty.schema.codec cfg).unknown x = n) :
    ∃ tys, Derive.fixedLength ⟨0, .struct b⟩ = some tys ∧ (Length.fixed tys).eval cfg b =
      some (((Schema.record (fields b.tys)).codec cfg).known, ((Schema.record (fields b.tys)).codec cfg).unknown) := by
  have go : ∀ tys : List Ty, (∀ ty ∈ tys, ∃ n, ty.len = some n ∧ (ty.schema.codec cfg).known = some n ∧
      ∀ x, (ty.schema.codec cfg).unknown x = n) → ∃ n, lens tys = some n ∧ ((fields tys).codec cfg).known = some n ∧
      ∀ x, ((fields tys).codec cfg).unknown x = n := by
    intro tys
    induction tys with
    | nil => exact fun _ => ⟨0, rfl, rfl, fun _ => rfl⟩
    | cons ty tys ih =>
      intro h
      obtain ⟨m, h1, h2, h5⟩ := h ty (List.mem_cons_self ..)
      obtain ⟨n, h3, h4, h6⟩ := ih fun t ht => h t (List.mem_cons_of_mem _ ht)
      refine ⟨m + n, by simp only [lens, h1, h3], ?_, fun x => ?_⟩
      · show (match (ty.schema.codec cfg).known, ((fields tys).codec cfg).known with
          | some m, some n => some (m + n)
          | _, _ => none) = _
        rw [h2, h4]
      · show (ty.schema.codec cfg).unknown x.1 + ((fields tys).codec cfg).unknown x.2 = _
        rw [h5, h6]
  obtain ⟨n, h1, h2, h3⟩ := go b.tys hk
  have hl : Derive.fixedLength ⟨0, .struct b⟩ = some b.tys := by
    cases b with
    | unit => rfl
    | unnamed tys => cases tys <;> rfl
    | named fs => cases fs <;> rfl
  refine ⟨b.tys, hl, ?_⟩
  simp only [Length.eval, h1, Nat.one_mul]
  rw [show ((Schema.record (fields b.tys)).codec cfg).known = some n from h2]
  congr 2
  funext x
  exact (h3 x).symm

/-- C88, what is rejected: enums, unions and types with generic parameters. -/
theorem C88_rejects (cfg : Cfg) (i : Derive.Input) (b : Body) (h : i.params ≠ 0 ∨ i.data = .enum ∨ i.data = .union) :
    Derive.writeTo cfg i b = none ∧ Derive.parse cfg i b = none ∧ Derive.estimate cfg i b = none ∧ Derive.len i = none := by
  obtain ⟨n, d⟩ := i
  rcases h with h | h | h
  · have h : n ≠ 0 := h
    refine ⟨?_, ?_, if_neg h, if_neg h⟩
    · cases he : Derive.encode ⟨n, d⟩ with
      | none => rw [Derive.writeTo, he]
      | some ms =>
        rw [Derive.writeTo, he]
        exact if_neg fun e => h e.1
    · cases he : Derive.decode ⟨n, d⟩ with
      | none => rw [Derive.parse, he]
      | some ms =>
        rw [Derive.parse, he]
        exact if_pos h
  · cases h
    refine ⟨rfl, rfl, ?_, ?_⟩
    · simp [Derive.estimate, Derive.estimable]
    · simp [Derive.len, Derive.fixedLength]
  · cases h
    refine ⟨rfl, rfl, ?_, ?_⟩
    · simp [Derive.estimate, Derive.estimable]
    · simp [Derive.len, Derive.fixedLength]

/-- C88, deviation: a struct with a field whose type names a user type `P` (or `Vec<P>` and so on) cannot derive
`Decode`, although it can derive `Encode` and `Estimable`: the generated function has a type parameter of that name. -/
theorem C88_capture_fails (cfg : Cfg) (b : Body) (hb : b.labels.Nodup) (hp : ∃ ty ∈ b.tys, text! "P" ∈ ty.names) :
    Derive.parse cfg ⟨0, .struct b⟩ b = none ∧ Derive.writeTo cfg ⟨0, .struct b⟩ b ≠ none ∧
    Derive.estimate cfg ⟨0, .struct b⟩ b ≠ none := by
  refine ⟨?_, by rw [C88_encode cfg b hb]; nofun, by rw [C88_estimate cfg b hb]; nofun⟩
  obtain ⟨ty, h1, h2⟩ := hp
  have hc : captured b.tys = true := by
    rw [captured, List.any_eq_true]
    exact ⟨ty, h1, by simpa using h2⟩
  cases b with
  | unit => cases h1
  | unnamed tys =>
    simp only [Derive.parse, Derive.decode]
    rw [if_neg (by simp), if_neg fun h => Bool.noConfusion (hc.symm.trans h.2)]
  | named fs =>
    simp only [Derive.parse, Derive.decode]
    rw [if_neg (by simp), if_neg fun h => Bool.noConfusion (hc.symm.trans h.2.2.2)]

/-- C88, deriving both `FixedLength` and `Estimable` is always rejected, deriving one of them never is. -/
theorem C88_one_length (i : Derive.Input) (l : Length) (h : Derive.estimable i = some l) :
    coherent [.fixedLength, l.trait] = false ∧ coherent [l.trait] = true ∧ coherent [.fixedLength] = true := by
  cases l <;> exact ⟨rfl, rfl, rfl⟩

/-- C88, which of the three traits a type has after `#[derive(Estimable)]`: `Estimable` always, the other two only without fields. -/
theorem C88_implements (b : Body) : ∃ l, Derive.estimable ⟨0, .struct b⟩ = some l ∧ .estimable ∈ l.trait.blanket ∧
    (.scalarLength ∈ l.trait.blanket ↔ b.tys = []) ∧ (.fixedLength ∈ l.trait.blanket ↔ b.tys = []) := by
  cases b with
  | unit => exact ⟨_, rfl, by decide, by decide, by decide⟩
  | unnamed tys =>
    match tys with
    | [] => exact ⟨_, rfl, by decide, by decide, by decide⟩
    | [ty] => exact ⟨_, rfl, .head _, ⟨nofun, nofun⟩, ⟨nofun, nofun⟩⟩
    | ty :: _ :: _ => exact ⟨_, rfl, .head _, ⟨nofun, nofun⟩, ⟨nofun, nofun⟩⟩
  | named fs =>
    match fs with
    | [] => exact ⟨_, rfl, by decide, by decide, by decide⟩
    | f :: fs => exact ⟨_, rfl, .head _, ⟨nofun, nofun⟩, ⟨nofun, nofun⟩⟩

/-- C88, the payloads of `data!`: the struct that holds a payload has the declared fields, and there is none only for
empty braces. -/
theorem C88_payload (p : Payload) : (structify p = none ↔ p = .braces []) ∧ ∀ b, structify p = some b → match p with
    | .comma => b = .unit
    | .parens tys => b.tys = tys ∧ b.labels = []
    | .braces fs => b = .named fs ∧ fs ≠ [] := by
  refine ⟨?_, fun b h => ?_⟩
  · cases p with
    | comma => exact ⟨nofun, nofun⟩
    | parens tys => cases tys <;> exact ⟨nofun, nofun⟩
    | braces fs => cases fs with
      | nil => exact ⟨fun _ => rfl, fun _ => rfl⟩
      | cons => exact ⟨nofun, nofun⟩
  · cases p with
    | comma => cases h; rfl
    | parens tys => cases tys <;> cases h <;> exact ⟨rfl, rfl⟩
    | braces fs => cases fs <;> cases h; exact ⟨rfl, nofun⟩

/-- `struct Pair { first: u8, second: Vec<u8> }` -/
def derivePair : Body := .named [(text! "first", ⟨[text! "u8"], .int .u8, some 1⟩),
  (text! "second", ⟨[text! "Vec", text! "u8"], .vecU8, none⟩)]

example : derivePair.labels.Nodup ∧ (∀ ty ∈ derivePair.tys, text! "P" ∉ ty.names) := by decide
example : fields derivePair.tys = .cons (.int .u8) (.cons .vecU8 .nil) := rfl
/-- The same field types in a tuple struct. -/
example : (Body.unnamed derivePair.tys).labels.Nodup := by decide
/-- `struct Bad(Vec<P>);` with a user type `P`. -/
example : ∃ ty ∈ (Body.unnamed [⟨[text! "Vec", text! "P"], .seq (.int .u8), none⟩]).tys, text! "P" ∈ ty.names :=
  ⟨_, .head _, .tail _ (.head _)⟩
example (cfg : Cfg) : ∀ ty ∈ (Body.unnamed [⟨[text! "u8"], .int .u8, some 1⟩]).tys,
    ∃ n, ty.len = some n ∧ (ty.schema.codec cfg).known = some n ∧ ∀ x, (ty.schema.codec cfg).unknown x = n := by
  intro ty h
  cases h with
  | head => exact ⟨1, rfl, rfl, fun _ => rfl⟩
  | tail _ h => cases h

end Verif.Props
