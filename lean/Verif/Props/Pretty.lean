import Verif.Lemmas.Lays
import Verif.Props.Debug
/-
C103: the alternate form `{:#?}` of `Debug`.
-/
namespace Verif
namespace Props

/-- C103: if line breaks and indentation are taken out of what `{:#?}` prints (`Place.join`, which knows nothing of types and values),
what is left is what `{:?}` prints; and the one panics exactly if the other does. -/
theorem C103_same (cfg : Cfg) (W : Printing) (hW : W.Tidy) (s : Schema) (x : s.Val) :
    (s.pretty cfg W x).map Place.mid.join = s.debug cfg W x := by
  have h := (s.lays cfg hW x).1
  generalize s.pretty cfg W x = o at h
  generalize s.debug cfg W x = o' at h
  cases h with
  | none => rfl
  | some h => exact congrArg some h.join

/-- C103: it panics for the same values, … -/
theorem C103_panics (cfg : Cfg) (W : Printing) (hW : W.Tidy) (s : Schema) (x : s.Val) :
    s.pretty cfg W x = none ↔ s.debug cfg W x = none := by
  rw [← C103_same cfg W hW s x, Option.map_eq_none_iff]

/-- C103: … and tells the same values apart. -/
theorem C103_identifies (cfg : Cfg) (W : Printing) (hW : W.Tidy) (hP : W.Proper) (s : Schema) (hf : s.floatFree = true) (x y : s.Val)
    (hx : s.pretty cfg W x ≠ none) (h : s.pretty cfg W x = s.pretty cfg W y) : x = y := by
  refine C75_identifies cfg W hP s hf x y ?_ ?_
  · rwa [Ne, ← C103_panics cfg W hW]
  · rw [← C103_same cfg W hW, ← C103_same cfg W hW, h]

/-- Lines, each with its end. -/
def unlines (ls : List Text) : Text := ls.flatMap (· ++ ['\n'])

theorem indent_line (r : Text) : ∀ l : Text, '\n' ∉ l → PrettyOf.indent false (l ++ '\n' :: r) = l ++ '\n' :: PrettyOf.indent true r
  | [], _ => rfl
  | c :: l, h => by
    have hc : (c == '\n') = false := beq_eq_false_iff_ne.mpr fun e => h (e ▸ .head _)
    show c :: PrettyOf.indent (c == '\n') (l ++ '\n' :: r) = _
    rw [hc, indent_line r l fun e => h (.tail _ e)]
    rfl

theorem indent_lines : ∀ ls : List Text, (∀ l ∈ ls, '\n' ∉ l) →
    PrettyOf.indent true (unlines ls) = unlines (ls.map ([' ', ' ', ' ', ' '] ++ ·))
  | [], _ => rfl
  | l :: ls, h => by
    have ih := indent_lines ls fun l hl => h l (.tail _ hl)
    have e : unlines (l :: ls) = l ++ '\n' :: unlines ls := by simp [unlines]
    have e' : ∀ x : Text, unlines (x :: ls.map ([' ', ' ', ' ', ' '] ++ ·)) = x ++ '\n' :: unlines (ls.map ([' ', ' ', ' ', ' '] ++ ·)) := by
      simp [unlines]
    rw [List.map_cons, e', e, ← ih]
    cases l with
    | nil => rfl
    | cons c l =>
      have hl := h _ (.head _)
      have hc : (c == '\n') = false := beq_eq_false_iff_ne.mpr fun e => hl (e ▸ .head _)
      show [' ', ' ', ' ', ' '] ++ c :: PrettyOf.indent (c == '\n') (l ++ '\n' :: unlines ls) = _
      rw [hc, indent_line _ l fun e => hl (.tail _ e)]
      rfl

/-- C103: the layout.  What is held in `Padded` is printed on lines of its own, four columns further to the right and with a comma
behind it; likewise the contents of the other wrappers and each field of a record. -/
theorem C103_layout (cfg : Cfg) (W : Printing) (s : Schema) (x : s.Val) (n : Nat) (ls : List Text) (last : Text)
    (hl : ∀ l ∈ ls ++ [last], '\n' ∉ l) (h : s.pretty cfg W x = some (unlines ls ++ last)) :
    let inner := unlines ((ls ++ [last ++ [',']]).map ([' ', ' ', ' ', ' '] ++ ·))
    (Schema.padded n s).pretty cfg W x = some (text! "Padded(" ++ '\n' :: inner ++ text! ")") ∧
    (Schema.option s).pretty cfg W (some x) = some (text! "Some(" ++ '\n' :: inner ++ text! ")") ∧
    (∀ name, W.record (.cons s .nil) = .tuple name →
      (Schema.record (.cons s .nil)).pretty cfg W (x, ()) = some (name ++ '(' :: '\n' :: inner ++ text! ")")) ∧
    (Schema.vpadded n s).pretty cfg W x = s.pretty cfg W x ∧ (Schema.autobox s).pretty cfg W x = s.pretty cfg W x := by
  intro inner
  have hi : PrettyOf.item (unlines ls ++ last) = inner := by
    have e : unlines ls ++ last ++ [',', '\n'] = unlines (ls ++ [last ++ [',']]) := by simp [unlines]
    rw [PrettyOf.item, e, indent_lines]
    intro l hm
    rw [List.mem_append, List.mem_singleton] at hm
    rcases hm with hm | rfl
    · exact hl l (List.mem_append_left _ hm)
    · have := hl last (by simp)
      simp [this]
  refine ⟨?_, ?_, ?_, rfl, rfl⟩
  · show Option.map _ (s.pretty cfg W x) = _
    rw [h, Option.map_some, PrettyOf.tuple, hi]
    simp
  · show Option.map _ (s.pretty cfg W x) = _
    rw [h, Option.map_some, PrettyOf.tuple, hi]
    simp
  · intro name hname
    simp only [Schema.pretty, Fields.pretty]
    rw [h]
    simp only [Option.map_some, hname, PrettyOf.struct, PrettyOf.items, List.flatMap_cons, List.flatMap_nil, hi]
    simp

/-- A text four columns further to the right, a comma, and the end of the line. -/
def entry (t : Text) : Text :=
  [' ', ' ', ' ', ' '] ++ t.flatMap (fun c => if c = '\n' then ['\n', ' ', ' ', ' ', ' '] else [c]) ++ [',', '\n']

theorem indent_shift : ∀ (b : Bool) (t : Text), PrettyOf.indent b (t ++ [',', '\n']) =
    (if b then [' ', ' ', ' ', ' '] else []) ++ t.flatMap (fun c => if c = '\n' then ['\n', ' ', ' ', ' ', ' '] else [c]) ++ [',', '\n']
  | true, [] => rfl
  | false, [] => rfl
  | b, c :: t => by
    have ih := indent_shift (c == '\n') t
    by_cases hc : c = '\n'
    · subst hc
      cases b <;> simp [PrettyOf.indent] <;> simpa using ih
    · have hc' : (c == '\n') = false := beq_eq_false_iff_ne.mpr hc
      rw [hc'] at ih
      cases b <;> simp [PrettyOf.indent, hc, hc'] <;> simpa using ih

theorem item_entry (t : Text) : PrettyOf.item t = entry t := indent_shift true t

theorem items_entry (ts : List Text) : PrettyOf.items ts = ts.flatMap entry := by
  rw [PrettyOf.items, show PrettyOf.item = entry from funext item_entry]

theorem each_mapM {α : Type} (p : α → Option Text) : ∀ xs : List α, DebugOf.each p xs = xs.mapM p
  | [] => rfl
  | x :: xs => by
    rw [List.mapM_cons, ← each_mapM p xs, DebugOf.each]
    cases p x with
    | none => rfl
    | some t => cases DebugOf.each p xs <;> rfl

/-- C103: the elements of a sequence are printed one after the other, each on lines of its own. -/
theorem C103_sequence (cfg : Cfg) (W : Printing) (s : Schema) (xs : List s.Val) (ts : List Text) (h : xs.mapM (s.pretty cfg W) = some ts) :
    let items := if ts = [] then text! "[]" else text! "[" ++ '\n' :: ts.flatMap entry ++ text! "]"
    (Schema.seq s).pretty cfg W xs = some (text! "Sequence(" ++ '\n' :: entry items ++ text! ")") ∧
    (∀ n, (Schema.limSeq n s).pretty cfg W xs = some (text! "LimSeq(" ++ '\n' :: entry items ++ text! ")")) ∧
    (∀ n, (Schema.fixSeq n s).pretty cfg W xs = some (text! "FixSeq(" ++ '\n' :: entry items ++ text! ")")) := by
  intro items
  have hi : PrettyOf.list (s.pretty cfg W) xs = some items := by
    rw [PrettyOf.list, each_mapM, h]
    cases ts with
    | nil => rfl
    | cons t ts => simp [items, PrettyOf.entries, items_entry]
  refine ⟨?_, fun n => ?_, fun n => ?_⟩ <;>
  · show Option.map _ (PrettyOf.list (s.pretty cfg W) xs) = _
    rw [hi, Option.map_some, PrettyOf.tuple, item_entry]
    simp

/-- C103: bytes are printed one per line; the brackets around none of them are closed on the same line. -/
theorem C103_bytes (cfg : Cfg) (W : Printing) (bs : Bytes) :
    let items := if bs = [] then text! "[]" else text! "[" ++ '\n' :: bs.flatMap (fun b => entry (decimal b.toNat)) ++ text! "]"
    Schema.vecU8.pretty cfg W bs = some items ∧
    Schema.bytes.pretty cfg W bs = some (text! "Bytes(" ++ '\n' :: entry items ++ text! ")") ∧
    (∀ h : bs.length = n, (Schema.fixedBytes n).pretty cfg W ⟨bs, h⟩ = some (text! "FixedBytes(" ++ '\n' :: entry items ++ text! ")")) ∧
    ∀ h : bs.length = n, (Schema.fixedString n).pretty cfg W ⟨bs, h⟩ =
      some (text! "FixedString {" ++ '\n' :: entry (text! "contents: " ++ items) ++ text! "}") := by
  intro items
  have hi : PrettyOf.bytes bs = items := by
    cases bs with
    | nil => rfl
    | cons b bs => simp [items, PrettyOf.bytes, PrettyOf.entries, items_entry, List.flatMap_map]
  refine ⟨?_, ?_, fun h => ?_, fun h => ?_⟩
  · show some (PrettyOf.bytes bs) = _
    rw [hi]
  · show some (PrettyOf.tuple _ (PrettyOf.bytes bs)) = _
    rw [hi, PrettyOf.tuple, item_entry]
    simp
  · show some (PrettyOf.tuple _ (PrettyOf.bytes bs)) = _
    rw [hi, PrettyOf.tuple, item_entry]
    simp
  · show some (PrettyOf.struct _ [PrettyOf.bytes bs]) = _
    rw [hi, PrettyOf.struct, items_entry]
    simp [DebugOf.labels]

/-- C103: ranged numbers have a line of their own; numbers of any size do not. -/
theorem C103_numbers (cfg : Cfg) (W : Printing) :
    (∀ t min max x, (Schema.rangedInt t min max).pretty cfg W x = some (text! "RangedInt(" ++ '\n' :: entry (signed (t.toInt x)) ++ text! ")")) ∧
    (∀ min max x, (Schema.rangedFloat min max).pretty cfg W x =
      some (text! "RangedFloat {" ++ '\n' :: entry (text! "val: " ++ W.float x) ++ text! "}")) ∧
    (∀ n : Nat, Schema.zarithN.pretty cfg W n = some (text! "ℕ(" ++ decimal n ++ text! ")")) ∧
    ∀ z : Int, Schema.zarithZ.pretty cfg W z = some (text! "ℤ(" ++ signed z ++ text! ")") := by
  refine ⟨fun t min max x => ?_, fun min max x => ?_, fun n => ?_, fun z => ?_⟩
  · show some (PrettyOf.tuple _ _) = _
    rw [PrettyOf.tuple, item_entry]
    simp
  · show some (PrettyOf.struct _ [_]) = _
    rw [PrettyOf.struct, items_entry]
    simp [DebugOf.labels]
  · show some (DebugOf.tuple _ _) = _
    simp [DebugOf.tuple]
  · show some (DebugOf.tuple _ _) = _
    simp [DebugOf.tuple]

/-- C103: a `Nullable` is printed as the option it holds, four columns further to the right. -/
theorem C103_nullable (cfg : Cfg) (W : Printing) (s : Schema) (o : Option s.Val) :
    (Schema.nullable s).pretty cfg W o = ((Schema.option s).pretty cfg W o).map fun t => text! "Nullable(" ++ '\n' :: entry t ++ text! ")" := by
  show Option.map _ (PrettyOf.option _ o) = Option.map _ (PrettyOf.option _ o)
  congr 1
  funext t
  rw [PrettyOf.tuple, item_entry]
  simp

/-- C103: the fields of a record are printed one after the other, each on lines of its own, behind its name if it has one. -/
theorem C103_record (cfg : Cfg) (W : Printing) (s : Schema) (fs : Fields) (x : s.Val) (y : fs.Val) (t : Text) (ts : List Text)
    (h : s.pretty cfg W x = some t) (h' : fs.pretty cfg W y = some ts) :
    (∀ name, W.record (.cons s fs) = .tuple name →
      (Schema.record (.cons s fs)).pretty cfg W (x, y) = some (name ++ text! "(" ++ '\n' :: (t :: ts).flatMap entry ++ text! ")")) ∧
    ∀ name field, W.record (.cons s fs) = .named name field →
      (Schema.record (.cons s fs)).pretty cfg W (x, y) = some (name ++ text! " {" ++ '\n' ::
        ((t :: ts).zipIdx.flatMap fun q => entry (field q.2 ++ text! ": " ++ q.1)) ++ text! "}") := by
  have hl : ∀ (field : Nat → Text) (l : List Text) (i : Nat), (DebugOf.labels field i l).flatMap entry =
      (l.zipIdx i).flatMap fun q => entry (field q.2 ++ text! ": " ++ q.1) := by
    intro field l
    induction l with
    | nil => exact fun _ => rfl
    | cons t l ih => intro i; simp [DebugOf.labels, ih]
  have e : (Fields.cons s fs).pretty cfg W (x, y) = some (t :: ts) := by
    simp only [Fields.pretty]
    rw [h, h']
    rfl
  refine ⟨fun name hn => ?_, fun name field hn => ?_⟩
  · show Option.map _ ((Fields.cons s fs).pretty cfg W (x, y)) = _
    rw [e, hn, Option.map_some, PrettyOf.struct, items_entry]
    simp
  · show Option.map _ ((Fields.cons s fs).pretty cfg W (x, y)) = _
    rw [e, hn, Option.map_some, PrettyOf.struct, items_entry, hl]
    simp

/-- C103: what is in a `Dynamic` or a `data!` enum is printed on one line, as with `{:?}`. -/
theorem C103_one_line (cfg : Cfg) (W : Printing) (hW : W.Tidy) :
    (∀ S s x, (Schema.dynamic S s).pretty cfg W x = (Schema.dynamic S s).debug cfg W x) ∧
    (∀ w vs x, (Schema.data w vs).pretty cfg W x = (Schema.data w vs).debug cfg W x) ∧
    ∀ s x p, Schema.debug cfg W s x = some p → '\n' ∉ p :=
  ⟨fun _ _ _ => rfl, fun _ _ _ => rfl, fun s x => (s.lays cfg hW x).1.clean⟩

/-! ### examples -/

private theorem quoted_clean : ∀ cs, '\n' ∉ quoted cs
  | [] => by decide
  | c :: cs => by
    have ih := quoted_clean cs
    have e : quoted (c :: cs) = escape c ++ quoted cs := by simp [quoted]
    rw [e, List.mem_append, not_or]
    refine ⟨?_, ih⟩
    unfold escape
    split
    · rename_i h; rcases h with rfl | rfl <;> decide
    · split
      · decide
      · rename_i h; simpa using Ne.symm h

private theorem named_word (c : Char) (hc : c ≠ ' ' ∧ c ≠ '\n' ∧ c ≠ ')' ∧ c ≠ ']' ∧ c ≠ '}') (n : Nat) : Word (named c n) :=
  word_text hc (by
    rintro (_ | ⟨_, h⟩)
    · exact hc.2.1 rfl
    · exact (word_decimal n).2 h)

private theorem sampleNames_tidy : sampleNames.Tidy where
  float _ := word_text (by decide) (by decide)
  str cs := word_text (by decide) (by
    rintro (_ | ⟨_, h⟩)
    exact quoted_clean cs h)
  variant _ t := named_word 'V' (by decide) t
  record _ := ⟨word_text (by decide) (by decide), fun i => named_word 'f' (by decide) i⟩
  arm _ i := named_word 'A' (by decide) i

example : ∃ W : Printing, W.Tidy ∧ W.Proper := ⟨_, sampleNames_tidy, sampleNames_proper⟩
example : (Schema.record (.cons .bool (.cons (.padded 2 (.dynamic .u8 (.seq .bool))) (.cons .bytes .nil)))).pretty ⟨.debug, false, true, true⟩
    sampleNames ((true, ([true, false] : List Bool), ([] : Bytes), ()) : Bool × List Bool × Bytes × Unit) = some text!
"Point {
    f0: true,
    f1: Padded(
        [2u8 bytes|Sequence([true, false])],
    ),
    f2: Bytes(
        [],
    ),
}" := by with_unfolding_all rfl
/-- Values whose contents do not have a length cannot be printed either way. -/
example (cfg : Cfg) (hcfg : cfg.encLenOverride = false) (bs : Bytes) (h : bs.length = 256) :
    (Schema.padded 3 (.dynamic .u16 (.dynamic .u8 .bytes))).pretty cfg sampleNames bs = none := by
  refine (C103_panics cfg _ sampleNames_tidy (.padded 3 (.dynamic .u16 (.dynamic .u8 .bytes))) bs).mpr ?_
  refine (C75_exact _ _ _ _).mpr ⟨hcfg, .inl ?_⟩
  refine (toBytes_wire (s := .dynamic .u8 .bytes) (.inl hcfg)).trans ?_
  show Enc.dynamic .u8 (fun x => (Enc.bytes x).map List.length) Enc.bytes bs = none
  simp [Enc.dynamic, Enc.bytes, h, LenPref.maxLen]

end Props
end Verif
