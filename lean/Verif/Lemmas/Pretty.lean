import Verif.Pretty
/-
Lemmas for C103.
-/
namespace Verif

/-- SPECIFICATION: where one is in a text when line breaks and indentation are taken out of it. -/
inductive Place where
  /-- within a line -/
  | mid
  /-- behind a comma -/
  | comma
  /-- behind an opening brace -/
  | brace
  /-- at the beginning of a line; did the last one end in a comma? -/
  | line (comma : Bool)

namespace Place

/-- What to write for the next character, and where one is then. -/
def inLine : Char → Text × Place
  | ',' => ([], comma)
  | '{' => (['{'], brace)
  | '\n' => ([], line false)
  | c => ([c], mid)

def next : Place → Char → Text × Place
  | mid, c => inLine c
  | brace, c => if c = '\n' then ([' '], line false) else inLine c
  | comma, c => if c = '\n' then ([], line true) else (',' :: (inLine c).1, (inLine c).2)
  | line b, c =>
    if c = ' ' then ([], line b)
    else if b then
      if c = ')' ∨ c = ']' then ([c], mid)
      else if c = '}' then ([' ', '}'], mid)
      else (',' :: ' ' :: (inLine c).1, (inLine c).2)
    else inLine c

/-- The text on one line. -/
def join : Place → Text → Text
  | comma, [] => [',']
  | line true, [] => [',']
  | _, [] => []
  | p, c :: t => (p.next c).1 ++ join (p.next c).2 t

theorem join_cons (p : Place) (c : Char) (t : Text) : p.join (c :: t) = (p.next c).1 ++ (p.next c).2.join t := by
  cases p with
  | line b => cases b <;> rfl
  | _ => rfl

def atLine : Place → Bool
  | line _ => true
  | _ => false

theorem next_newline (p : Place) : (p.next '\n').2.atLine = true := by
  cases p with
  | line b => cases b <;> rfl
  | _ => rfl

theorem join_spaces (b : Bool) (t : Text) : (line b).join ([' ', ' ', ' ', ' '] ++ t) = (line b).join t := by
  cases b <;> rfl

/-- Indentation does not matter. -/
theorem join_indent (r : Text) : ∀ (t : Text) (p : Place) (b : Bool), (b = true → p.atLine = true) →
    p.join (PrettyOf.indent b t ++ r) = p.join (t ++ r)
  | [], _, true, _ => rfl
  | [], _, false, _ => rfl
  | c :: t, p, b, h => by
    have key : p.join (c :: PrettyOf.indent (c == '\n') t ++ r) = p.join (c :: t ++ r) := by
      rw [List.cons_append, List.cons_append, join_cons, join_cons, join_indent r t]
      intro hc
      rw [beq_iff_eq] at hc
      subst hc
      exact next_newline p
    cases b with
    | false => exact key
    | true =>
      cases p with
      | line b => rw [PrettyOf.indent, List.append_assoc, join_spaces]; exact key
      | _ => cases h rfl

theorem inLine_clean (c : Char) : '\n' ∉ (inLine c).1 := by
  unfold inLine
  split
  · nofun
  · decide
  · nofun
  · rename_i h
    simp only [List.mem_singleton]
    exact fun e => h e.symm

theorem next_clean (p : Place) (c : Char) : '\n' ∉ (p.next c).1 := by
  have h := inLine_clean c
  cases p <;> simp only [next] <;> repeat' split
  all_goals first
    | exact h
    | simp_all; done
    | (rename_i hc; rcases hc with rfl | rfl <;> decide)

theorem join_clean : ∀ (t : Text) (p : Place), '\n' ∉ p.join t
  | [], p => by rcases p with _ | _ | _ | _ | _ <;> simp [join]
  | c :: t, p => by
    rw [join_cons, List.mem_append]
    rintro (h | h)
    · exact next_clean p c h
    · exact join_clean t _ h

theorem join_brace {r : Text} (h : r.head? ≠ some '\n') : brace.join r = mid.join r := by
  cases r with
  | nil => rfl
  | cons c t =>
    have hc : c ≠ '\n' := fun e => h (by rw [e]; rfl)
    rw [join_cons, join_cons]
    simp only [next, if_neg hc]

theorem join_comma {r : Text} (h : r.head? ≠ some '\n') : comma.join r = ',' :: mid.join r := by
  cases r with
  | nil => rfl
  | cons c t =>
    have hc : c ≠ '\n' := fun e => h (by rw [e]; rfl)
    rw [join_cons, join_cons]
    simp only [next, if_neg hc]
    rfl

/-- A text on one line stays as it is. -/
theorem join_flat {r : Text} (hr : r.head? ≠ some '\n') : ∀ a : Text, '\n' ∉ a → mid.join (a ++ r) = a ++ mid.join r
  | [], _ => rfl
  | c :: a, h => by
    have h1 : '\n' ∉ a := fun e => h (.tail _ e)
    have h2 : (a ++ r).head? ≠ some '\n' := by
      cases a with
      | nil => exact hr
      | cons d a => rintro e; cases e; exact h1 (.head _)
    have ih := join_flat hr a h1
    rw [List.cons_append, join_cons]
    simp only [next]
    unfold inLine
    split
    · rw [join_comma h2, ih]; rfl
    · rw [join_brace h2, ih]; rfl
    · exact absurd (.head _) h
    · rw [ih]; rfl

end Place

open Place

/-- Does the text begin with something other than space and closing brackets? -/
def Starts (t : Text) : Prop := ∃ c r, t = c :: r ∧ c ≠ ' ' ∧ c ≠ '\n' ∧ c ≠ ')' ∧ c ≠ ']' ∧ c ≠ '}'

/-- One word: it begins properly and has no line break. -/
def Word (t : Text) : Prop := Starts t ∧ '\n' ∉ t

/-- `t` says on several lines what `p` says on one. -/
def Spreads (t p : Text) : Prop := Starts t ∧ ∀ r : Text, r.head? ≠ some '\n' → mid.join (t ++ r) = p ++ mid.join r

theorem Starts.append {t : Text} (h : Starts t) (r : Text) : Starts (t ++ r) := by
  obtain ⟨c, t, rfl, h⟩ := h
  exact ⟨c, t ++ r, rfl, h⟩

theorem Starts.no_newline {t : Text} (h : Starts t) (r : Text) : (t ++ r).head? ≠ some '\n' := by
  obtain ⟨c, t, rfl, _, h, _⟩ := h
  simpa using h

theorem Word.spreads {t : Text} (h : Word t) : Spreads t t := ⟨h.1, fun _ hr => join_flat hr t h.2⟩

theorem Spreads.join {t p : Text} (h : Spreads t p) : mid.join t = p := by
  have := h.2 [] nofun
  simpa [Place.join] using this

theorem Spreads.clean {t p : Text} (h : Spreads t p) : '\n' ∉ p := h.join ▸ join_clean t mid

theorem Spreads.behind {a t p : Text} (ha : Word a) (h : Spreads t p) : Spreads (a ++ t) (a ++ p) := by
  refine ⟨ha.1.append t, fun r hr => ?_⟩
  rw [List.append_assoc, join_flat (h.1.no_newline r) a ha.2, h.2 r hr, List.append_assoc]

theorem Starts.line {t : Text} (h : Starts t) (b : Bool) :
    (Place.line b).join t = (if b then [',', ' '] else []) ++ mid.join t := by
  obtain ⟨c, t, rfl, h1, h2, h3, h4, h5⟩ := h
  rw [join_cons, join_cons]
  cases b <;> simp [next, h1, h3, h4, h5]

theorem Spreads.item {t p : Text} (h : Spreads t p) (b : Bool) (r : Text) :
    (Place.line b).join (PrettyOf.item t ++ r) = (if b then [',', ' '] else []) ++ p ++ (Place.line true).join r := by
  rw [PrettyOf.item, join_indent _ _ _ _ fun _ => rfl, List.append_assoc, (h.1.append _).line, h.2 _ (by simp), List.append_assoc]
  rfl

/-- Texts one by one. -/
inductive Each (R : Text → Text → Prop) : List Text → List Text → Prop
  | nil : Each R [] []
  | cons {t p ts ps} (h : R t p) (hs : Each R ts ps) : Each R (t :: ts) (p :: ps)

theorem Each.more {ts ps : List Text} (h : Each Spreads ts ps) : ∀ r,
    (Place.line true).join (PrettyOf.items ts ++ r) = ps.flatMap ([',', ' '] ++ ·) ++ (Place.line true).join r := by
  induction h with
  | nil => exact fun _ => rfl
  | cons h _ ih =>
    intro r
    show (Place.line true).join ((PrettyOf.item _ ++ PrettyOf.items _) ++ r) = _
    rw [List.append_assoc, h.item, ih]
    simp

theorem commas_cons (p : Text) : ∀ ps : List Text, DebugOf.commas (p :: ps) = p ++ ps.flatMap ([',', ' '] ++ ·)
  | [] => by simp [DebugOf.commas]
  | q :: ps => by
    rw [DebugOf.commas, commas_cons q ps]
    · simp
    · nofun

theorem Each.items {t p : Text} {ts ps : List Text} (h : Each Spreads (t :: ts) (p :: ps)) (r : Text) :
    (Place.line false).join (PrettyOf.items (t :: ts) ++ r) = DebugOf.commas (p :: ps) ++ (Place.line true).join r := by
  cases h with
  | cons h hs =>
    show (Place.line false).join ((PrettyOf.item _ ++ PrettyOf.items _) ++ r) = _
    rw [List.append_assoc, h.item, hs.more, commas_cons]
    simp

theorem Each.labels {ts ps : List Text} (field : Nat → Text) (hf : ∀ i, Word (field i)) (h : Each Spreads ts ps) :
    ∀ i, Each Spreads (DebugOf.labels field i ts) (DebugOf.labels field i ps) := by
  induction h with
  | nil => exact fun _ => .nil
  | cons h _ ih =>
    refine fun i => .cons (Spreads.behind ⟨(hf i).1.append _, ?_⟩ h) (ih (i + 1))
    simp [(hf i).2]

theorem spread_open {name : Text} (hn : Word name) {x p : Text} {o c : Char} (ho : o ≠ '\n' ∧ o ≠ ',' ∧ o ≠ '{')
    (hc : c = ')' ∨ c = ']') (h : ∀ r, (Place.line false).join (x ++ r) = p ++ (Place.line true).join r) :
    Spreads (name ++ [o, '\n'] ++ x ++ [c]) (name ++ [o] ++ p ++ [c]) := by
  refine ⟨((hn.1.append _).append _).append _, fun r hr => ?_⟩
  rw [show name ++ [o, '\n'] ++ x ++ [c] ++ r = name ++ ([o, '\n'] ++ (x ++ (c :: r))) by simp,
    join_flat (by simp [ho.1]) name hn.2]
  have e : mid.join ([o, '\n'] ++ (x ++ (c :: r))) = o :: (Place.line false).join (x ++ (c :: r)) := by
    rw [List.cons_append, join_cons]
    have : inLine o = ([o], mid) := by unfold inLine; split <;> simp_all
    simp only [next, this]
    rfl
  rw [e, h, join_cons]
  rcases hc with rfl | rfl <;> simp [next]

/-- The shape has proper names. -/
def Shape.Tidy : Shape → Prop
  | .tuple name => Word name
  | .named name field => Word name ∧ ∀ i, Word (field i)

theorem Each.struct {ts ps : List Text} (h : Each Spreads ts ps) : ∀ {sh : Shape}, sh.Tidy →
    Spreads (PrettyOf.struct sh ts) (DebugOf.struct sh ps) := by
  intro sh hsh
  cases h with
  | nil =>
    cases sh with
    | tuple name => exact Word.spreads hsh
    | named name field => exact Word.spreads hsh.1
  | cons h hs =>
    cases sh with
    | tuple name =>
      exact spread_open (o := '(') (c := ')') hsh (by decide) (.inl rfl) fun r => Each.items (.cons h hs) r
    | named name field =>
      have hl := Each.labels field hsh.2 (.cons h hs) 0
      refine ⟨((hsh.1.1.append _).append _).append _, fun r hr => ?_⟩
      simp only [PrettyOf.struct, DebugOf.struct]
      generalize hx : DebugOf.labels field 0 (_ :: _) = ls at hl
      generalize hy : DebugOf.labels field 0 (_ :: _) = ms at hl
      cases hl with
      | nil => cases hx
      | cons h1 h2 =>
        rw [show ∀ (n x : Text), n ++ [' ', '{', '\n'] ++ x ++ ['}'] ++ r = n ++ ([' ', '{', '\n'] ++ (x ++ ('}' :: r))) by simp,
          join_flat (by simp) _ hsh.1.2]
        have e : ∀ x, mid.join ([' ', '{', '\n'] ++ x) = [' ', '{', ' '] ++ (Place.line false).join x := fun _ => rfl
        rw [e, Each.items (.cons h1 h2), join_cons]
        simp [next]

theorem Each.entries {ts ps : List Text} (h : Each Spreads ts ps) :
    Spreads (PrettyOf.entries ts) (['['] ++ DebugOf.commas ps ++ [']']) := by
  cases h with
  | nil => exact Word.spreads ⟨⟨_, _, rfl, by decide⟩, by decide⟩
  | cons h hs =>
    refine ⟨⟨_, _, rfl, by decide⟩, fun r hr => ?_⟩
    have e : ∀ x, mid.join ('[' :: '\n' :: x) = '[' :: (Place.line false).join x := fun _ => rfl
    simp only [PrettyOf.entries, List.cons_append, List.nil_append, List.append_assoc]
    rw [e, Each.items (.cons h hs), join_cons]
    simp [next]

theorem Spreads.tuple {name t p : Text} (hn : Word name) (h : Spreads t p) :
    Spreads (PrettyOf.tuple name t) (DebugOf.tuple name p) := by
  have := spread_open (o := '(') (c := ')') hn (by decide) (.inl rfl) (x := PrettyOf.item t) (p := p) fun r => by
    rw [h.item]; rfl
  exact this

end Verif
