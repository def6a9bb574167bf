import Verif.RecStored
import Verif.Lemmas.Reserved
import Verif.Props.Size
import Verif.Lemmas.Sealed
import Verif.Lemmas.PartsFill
import Verif.Lemmas.Unfold
/-
C97: `FixSeq` and `LimSeq` reserve memory for as many elements as they may have before they read any.
-/
namespace Verif.Props

open Codec

/-- C97: if there is room for all bounded sequences that a type mentions, nothing depends on how they are stored. -/
theorem C97_room (L : Layout) (cfg : Cfg) (s : Schema) (h : s.HasRoom L) : s.storedCodec L cfg = s.codec cfg := s.stored_eq L cfg h

/-- C97: encoding and estimates never do. -/
theorem C97_write (L : Layout) (cfg : Cfg) (s : Schema) (x : s.Val) :
    (∀ {τ : Type} (T : TargetOps τ), (s.storedCodec L cfg).write T x = (s.codec cfg).write T x) ∧
    (s.storedCodec L cfg).toBytes x = (s.codec cfg).toBytes x ∧ (s.storedCodec L cfg).estimate x = (s.codec cfg).estimate x := by
  have h := s.stored_enc L cfg
  refine ⟨fun T => congrFun (h.write T) x, ?_, congrFun h.estimate x⟩
  unfold Codec.toBytes Codec.writeToVec; rw [h.write]

/-- C97, decoding any type, with any parser in any state: the outcome is the one without regard to storage, or a panic. -/
theorem C97_parse (L : Layout) (cfg : Cfg) (s : Schema) {σ : Type} (P : ParserOps σ) (st : σ) :
    (s.storedCodec L cfg).parse P st = .panic ∨ (s.storedCodec L cfg).parse P st = (s.codec cfg).parse P st :=
  (s.stored_guards L cfg P).1 st

/-- C97: decoding a value panics exactly if there is no room for one of the bounded sequences inside. -/
theorem C97_values (L : Layout) (cfg : Cfg) (s : Schema) {σ : Type} (P : ParserOps σ) (st st' : σ) (x : s.Val)
    (h : (s.codec cfg).parse P st = .ok x st') :
    (s.eachPart (RoomPart L) x → (s.storedCodec L cfg).parse P st = .ok x st') ∧
    (¬ s.eachPart (RoomPart L) x → (s.storedCodec L cfg).parse P st = .panic) := by
  have h1 := (s.stored_guards L cfg P).2 st x st' h
  refine ⟨h1.mp, fun hn => ?_⟩
  rcases C97_parse L cfg s P st with h2 | h2
  · exact h2
  · exact absurd (h1.mpr (h2.trans h)) hn

theorem stored_ok {L : Layout} {cfg : Cfg} {s : Schema} {σ : Type} {P : ParserOps σ} {st st' : σ} {x : s.Val}
    (h : (s.storedCodec L cfg).parse P st = .ok x st') : (s.codec cfg).parse P st = .ok x st' ∧ s.eachPart (RoomPart L) x := by
  rcases C97_parse L cfg s P st with h2 | h2
  · rw [h2] at h; cases h
  · have h3 := h2.symm.trans h
    exact ⟨h3, ((s.stored_guards L cfg P).2 st x st' h3).mpr h⟩

/-- C97: bytes decode to a value exactly if they do without regard to storage and there is room for the bounded sequences inside it. -/
theorem C97_decodes (L : Layout) (cfg : Cfg) (s : Schema) (v : Bytes) (hv : v.length ≤ isizeMax) (x : s.Val) (rest : Bytes) :
    (s.storedCodec L cfg).Decodes cfg v x rest ↔ (s.codec cfg).Decodes cfg v x rest ∧ s.eachPart (RoomPart L) x := by
  constructor
  · intro h
    refine ⟨fun k vs st hs => ?_, ?_⟩
    · obtain ⟨st', h1, h2⟩ := h k vs st hs
      exact ⟨st', (stored_ok h1).1, h2⟩
    · obtain ⟨st', h1, _⟩ := h .slice [] _ (Backend.holds_init .slice hv)
      exact (stored_ok h1).2
  · rintro ⟨h, hx⟩ k vs st hs
    obtain ⟨st', h1, h2⟩ := h k vs st hs
    exact ⟨st', (C97_values L cfg s _ st st' x h1).1 hx, h2⟩

/-- C97: where there is no room, decoding panics whatever the parser, its state and the input. -/
theorem C97_no_room (L : Layout) (cfg : Cfg) (s : Schema) (n : Nat) {σ : Type} (P : ParserOps σ) (st : σ) :
    (¬ Room L.fixArray (L.size s) n → ((Schema.fixSeq n s).storedCodec L cfg).parse P st = .panic) ∧
    (¬ Room L.limArray (L.size s) n → ((Schema.limSeq n s).storedCodec L cfg).parse P st = .panic) :=
  ⟨fun h => Codec.storedFix_none h _ P st, fun h => Codec.storedLim_none h _ P st⟩

/-- C97: what the bounded sequences of a decoded value have reserved is at most linear in the number of bytes read. -/
theorem C97_reserved (L : Layout) (s : Schema) (hs : s.sized = true) :
    ∃ A B, ∀ cfg : Cfg, SizeLinear (s.reserved L) (s.storedCodec L cfg) cfg A B := by
  obtain ⟨A, B, h⟩ := C67_linear s hs
  refine ⟨s.largest L * A, s.largest L * B, fun cfg k v vs st st' x hh he => ?_⟩
  obtain ⟨v', h1, h2, h3⟩ := h cfg k v vs st st' x hh (stored_ok he).1
  refine ⟨v', h1, h2, Nat.le_trans (s.reserved_le (Nat.le_refl _) x) (Nat.le_trans (Nat.mul_le_mul_left _ h3) ?_)⟩
  rw [Nat.mul_add, Nat.mul_assoc]
  exact Nat.le_refl _

/-! ### recursive types -/

theorem roomPart_fill {L : Layout} {ρ ρ' : Nat → Schema} {f : ∀ i, (ρ i).Val → (ρ' i).Val}
    (hL : ∀ t : Schema, L.size (t.fill ρ') = L.size (t.fill ρ)) (s : Schema) (hs : ∀ i, s ≠ .hole i)
    (x : (s.fill ρ).Val) : RoomPart L (s.fill ρ') (s.mapFill f x) ↔ RoomPart L (s.fill ρ) x := by
  cases s
  case fixSeq n s => show Room _ (L.size (s.fill ρ')) n ↔ _; rw [hL s]; exact Iff.rfl
  case limSeq n s => show Room _ (L.size (s.fill ρ')) n ↔ _; rw [hL s]; exact Iff.rfl
  case hole i => exact absurd rfl (hs i)
  all_goals exact Iff.rfl

theorem roomPart_lift {L : Layout} {d : Decls} (hL : L.Uniform d) :
    ∀ n i x, (d.unfold (n + 1) i).eachPart (RoomPart L) (d.lift n i x) ↔ (d.unfold n i).eachPart (RoomPart L) x
  | 0, _, x => nomatch x
  | n + 1, i, x => (d.body i).eachPart_fill (roomPart_fill (hL n)) (fun j y => roomPart_lift hL n j y) x

theorem roomPart_val {L : Layout} {d : Decls} (hL : L.Uniform d) {i n m : Nat} {x : (d.unfold n i).Val} {y : (d.unfold m i).Val}
    (h : d.val n x = d.val m y) : (d.unfold n i).eachPart (RoomPart L) x ↔ (d.unfold m i).eachPart (RoomPart L) y := by
  let F : d.Val i → Prop := Quot.lift (fun p => (d.unfold p.1 i).eachPart (RoomPart L) p.2) fun _ _ h => by
    cases h with
    | step n x => exact propext (roomPart_lift hL n i x).symm
  exact iff_of_eq (congrArg F h)

/-- C97 for recursive types: the outcome without regard to storage, or a panic. -/
theorem C97_recursive_parse (L : Layout) (cfg : Cfg) (d : Decls) (i : Nat) {σ : Type} (P : ParserOps σ) (st : σ) :
    (d.storedCodec L cfg i).parse P st = .panic ∨ (d.storedCodec L cfg i).parse P st = (d.codec cfg i).parse P st := by
  by_cases hex : ∃ n, ((d.unfold n i).storedCodec L cfg).parse P st ≠ .diverge
  · have e : (d.storedCodec L cfg i).parse P st =
        (d.val hex.choose <$> ((d.unfold hex.choose i).storedCodec L cfg).parse P) st := dif_pos hex
    rw [e]
    rcases C97_parse L cfg (d.unfold hex.choose i) P st with h | h
    · left; rw [M.map_run, h]; rfl
    · have hs := hex.choose_spec
      rw [h] at hs
      right
      rw [d.parse_eq hs, M.map_run, M.map_run, h]
  · have e : (d.storedCodec L cfg i).parse P st = .diverge := dif_neg hex
    right
    rw [e]
    have e' : (d.codec cfg i).parse P st = .diverge := dif_neg ?_
    · exact e'.symm
    rintro ⟨n, hn⟩
    rcases C97_parse L cfg (d.unfold n i) P st with h | h
    · exact hex ⟨n, by rw [h]; nofun⟩
    · exact hex ⟨n, by rw [h]; exact hn⟩

theorem stored_sim_val {L : Layout} (cfg : Cfg) {d : Decls} (hL : L.Uniform d) (i : Nat) :
    ∀ (k n : Nat) {σ : Type} (P : ParserOps σ) (s : σ),
    ((d.unfold n i).storedCodec L cfg).parse P s = .diverge ∨
      (d.val (n + k) <$> ((d.unfold (n + k) i).storedCodec L cfg).parse P) s =
        (d.val n <$> ((d.unfold n i).storedCodec L cfg).parse P) s
  | 0, _, _, _, _ => .inr rfl
  | k + 1, n, _, P, s => by
    rcases stored_sim_val cfg hL i k n P s with h | h
    · exact .inl h
    · by_cases hd : ((d.unfold n i).storedCodec L cfg).parse P s = .diverge
      · exact .inl hd
      · refine .inr (Eq.trans ?_ h)
        rcases (d.lift_storedSim hL cfg (n + k) i).parse P s with h' | h'
        · exfalso
          rw [M.map_run, M.map_run, h'] at h
          apply hd
          revert h
          cases ((d.unfold n i).storedCodec L cfg).parse P s with
          | diverge => exact fun _ => rfl
          | _ => exact fun h => nomatch h
        · show (d.val (n + k + 1) <$> ((d.unfold (n + k + 1) i).storedCodec L cfg).parse P) s = _
          rw [M.map_run, M.map_run, h', M.map_run]
          cases ((d.unfold (n + k) i).storedCodec L cfg).parse P s with
          | ok a s' => exact congrArg (fun a => Out.ok a s') (d.val_lift (n + k) a)
          | _ => rfl

theorem stored_parse_eq {L : Layout} (cfg : Cfg) {d : Decls} (hL : L.Uniform d) {i n : Nat} {σ : Type} {P : ParserOps σ} {s : σ}
    (h : ((d.unfold n i).storedCodec L cfg).parse P s ≠ .diverge) :
    (d.storedCodec L cfg i).parse P s = (d.val n <$> ((d.unfold n i).storedCodec L cfg).parse P) s := by
  have hex : ∃ n, ((d.unfold n i).storedCodec L cfg).parse P s ≠ .diverge := ⟨n, h⟩
  have e : (d.storedCodec L cfg i).parse P s = (d.val hex.choose <$> ((d.unfold hex.choose i).storedCodec L cfg).parse P) s := dif_pos hex
  rw [e]
  rcases Nat.le_total hex.choose n with hl | hl
  · have h' := stored_sim_val cfg hL i (n - hex.choose) hex.choose P s
    rw [Nat.add_sub_cancel' hl] at h'
    exact (h'.resolve_left hex.choose_spec).symm
  · have h' := stored_sim_val cfg hL i (hex.choose - n) n P s
    rw [Nat.add_sub_cancel' hl] at h'
    exact h'.resolve_left h

/-- C97 for recursive types: decoding a value panics exactly if there is no room for one of the bounded sequences inside, at any depth. -/
theorem C97_recursive_values (L : Layout) (cfg : Cfg) (d : Decls) (hL : L.Uniform d) (i : Nat) {σ : Type} (P : ParserOps σ) (st st' : σ)
    (n : Nat) (x : (d.unfold n i).Val) (h : (d.codec cfg i).parse P st = .ok (d.val n x) st') :
    ((d.unfold n i).eachPart (RoomPart L) x → (d.storedCodec L cfg i).parse P st = .ok (d.val n x) st') ∧
    (¬ (d.unfold n i).eachPart (RoomPart L) x → (d.storedCodec L cfg i).parse P st = .panic) := by
  obtain ⟨m, y, e, hp⟩ := d.parse_inv h
  have h1 := C97_values L cfg (d.unfold m i) P st st' y hp
  rw [roomPart_val hL e]
  refine ⟨fun hx => ?_, fun hx => ?_⟩
  · rw [stored_parse_eq cfg hL (n := m) (by rw [h1.1 hx]; nofun), M.map_run, h1.1 hx, e]
    rfl
  · rw [stored_parse_eq cfg hL (n := m) (by rw [h1.2 hx]; nofun), M.map_run, h1.2 hx]
    rfl

/-- C97 for recursive types: if there is room for all bounded sequences that the definitions mention, nothing depends on how they are stored. -/
theorem C97_recursive_room (L : Layout) (cfg : Cfg) (d : Decls) (hL : L.Uniform d) (h : ∀ j, (d.body j).HasRoom L) (i : Nat) :
    d.storedCodec L cfg i = d.codec cfg i := by
  have he : ∀ n, (d.unfold n i).storedCodec L cfg = (d.unfold n i).codec cfg := fun n => Schema.stored_eq L cfg _ (Decls.hasRoom_unfold hL h n i)
  have hp : ∀ {σ : Type} (P : ParserOps σ), (d.storedCodec L cfg i).parse P = (d.codec cfg i).parse P := fun P => funext fun st => by
    by_cases hex : ∃ n, ((d.unfold n i).codec cfg).parse P st ≠ .diverge
    · obtain ⟨n, hn⟩ := hex
      rw [d.parse_eq hn, stored_parse_eq cfg hL (n := n) (by rw [he]; exact hn), he]
    · have e1 : (d.codec cfg i).parse P st = .diverge := dif_neg hex
      have e2 : (d.storedCodec L cfg i).parse P st = .diverge := dif_neg fun ⟨n, hn⟩ => hex ⟨n, by rw [← he]; exact hn⟩
      rw [e1, e2]
  have hw : ∀ {τ : Type} (T : TargetOps τ), (d.storedCodec L cfg i).write T = (d.codec cfg i).write T := fun _ => rfl
  have hk : (d.storedCodec L cfg i).known = (d.codec cfg i).known := rfl
  have hu : (d.storedCodec L cfg i).unknown = (d.codec cfg i).unknown := rfl
  revert hw hu hp hk
  cases d.storedCodec L cfg i
  cases d.codec cfg i
  intro hp hw hk hu
  congr 1
  · funext τ T; exact hw T
  · funext σ P; exact hp P

/-- C97 for recursive types (finitely many of them) in which recursion happens only after something has been read: what the
bounded sequences of a decoded value have reserved is at most linear in the number of bytes read. -/
theorem C97_recursive_reserved (L : Layout) (d : Decls) (hL : L.Uniform d) (hst : d.Stable) (hg : d.Paced) (l : List Schema)
    (hl : ∀ i, d.body i ∈ l) : ∃ A B, ∀ (cfg : Cfg) (i : Nat) (k : Backend) (v : Bytes) (vs : List Bytes) (st st' : k.State) (n : Nat)
      (x : (d.unfold n i).Val), k.Holds v vs st → (d.storedCodec L cfg i).parse (k.ops cfg.prof) st = .ok (d.val n x) st' →
      ∃ v', k.Holds v' vs st' ∧ v'.length ≤ v.length ∧ (d.unfold n i).reserved L x ≤ A + B * (v.length - v'.length) := by
  obtain ⟨A, B, h⟩ := C67_linear_recursive d hst hg l hl
  obtain ⟨K, hK⟩ := bounded_of_mem (fun s => s.largest L) l
  refine ⟨K * A, K * B, fun cfg i k v vs st st' n x hh he => ?_⟩
  have he' : (d.codec cfg i).parse (k.ops cfg.prof) st = .ok (d.val n x) st' := by
    rcases C97_recursive_parse L cfg d i (k.ops cfg.prof) st with h2 | h2
    · rw [h2] at he; cases he
    · exact h2.symm.trans he
  obtain ⟨v', h1, h2, h3⟩ := h cfg i k v vs st st' _ hh he'
  refine ⟨v', h1, h2, Nat.le_trans (Schema.reserved_le _ (Decls.largest_unfold hL (fun j => hK _ (hl j)) n i) x)
    (Nat.le_trans (Nat.mul_le_mul_left _ (m := A + B * (v.length - v'.length)) h3) ?_)⟩
  rw [Nat.mul_add, Nat.mul_assoc]
  exact Nat.le_refl _

/-! ### what they reserve does depend on the type -/

/-- Sequences of length-prefixed sequences of at most `N` bytes. -/
abbrev bounded (N : Nat) : Schema := .seq (.dynamic .u8 (.limSeq N (.int .u8)))

theorem boundedElem_zero (cfg : Cfg) (N : Nat) (rest : Bytes) :
    (Schema.dynamic .u8 (.limSeq N (.int .u8))).dec cfg (0 :: rest) = .ok ([] : List (BitVec 8)) rest := by
  refine D.bind_eq_ok.mpr ⟨0, rest, Dec.lenPref_append .u8 (n := 0) (Nat.zero_le _) rest, ?_⟩
  refine (if_pos (Nat.zero_le _)).trans ?_
  cases N <;> rfl

theorem bounded_zero (cfg : Cfg) (N : Nat) : ∀ m : Nat,
    (bounded N).dec cfg (List.replicate m 0) = .ok (List.replicate m ([] : List (BitVec 8))) []
  | 0 => by
    show D.many _ [] = _
    rw [D.many]; rfl
  | m + 1 => by
    show D.many _ _ = _
    rw [List.replicate_succ]
    refine (TwoStep.many_cons (by simp)).mpr ⟨_, _, _, boundedElem_zero cfg N _, Nat.lt_succ_self _, bounded_zero cfg N m, rfl⟩

/-- C97: a byte can make a decoder reserve as much as the type allows a sequence to hold: a sequence of `m` empty sequences of at
most `N` bytes takes `m` bytes of input and reserves `m * N` bytes, times the size of an element in memory. -/
theorem C97_amplifies (L : Layout) (hL : L.limArray = false) (cfg : Cfg) (N m : Nat) (hN : N * L.size (.int .u8) ≤ isizeMax) :
    ∃ x : (bounded N).Val, ((bounded N).storedCodec L cfg).Decodes cfg (List.replicate m 0) x [] ∧
      (bounded N).reserved L x = m * (N * L.size (.int .u8)) := by
  have hr : (bounded N).HasRoom L := ⟨by rw [hL]; exact hN, trivial⟩
  refine ⟨List.replicate m ([] : List (BitVec 8)), ?_, ?_⟩
  · rw [C97_room L cfg _ hr]
    exact Parses.decodes (Schema.parses cfg (bounded N)) (bounded_zero cfg N m)
  · show ((List.replicate m ([] : List (BitVec 8))).map fun (xs : List (BitVec 8)) => Reserve L.limArray (L.size (.int .u8)) N + (xs.map fun _ => 0).sum).sum = _
    rw [hL]
    simp [Reserve]

/-- Vectors for both kinds, and elements of one byte for `u8`, of eight bytes for everything else. -/
def vecLayout : Layout where
  fixArray := false
  limArray := false
  size s := match s with
    | .int .u8 => 1
    | _ => 8

/-- The hypotheses are met: a thousand empty sequences of at most a million bytes. -/
example : vecLayout.limArray = false ∧ 1000000 * vecLayout.size (.int .u8) ≤ isizeMax :=
  ⟨rfl, Nat.le_trans (by decide) isizeMax_ge⟩

/-- There is no room for a vector of `isize::MAX + 1` bytes, and there is for an empty value beside it. -/
example : ¬ Room vecLayout.limArray (vecLayout.size (.int .u8)) (isizeMax + 1) ∧
    ¬ (Schema.option (.limSeq (isizeMax + 1) (.int .u8))).HasRoom vecLayout ∧
    (Schema.option (.limSeq (isizeMax + 1) (.int .u8))).eachPart (RoomPart vecLayout) none ∧
    ¬ (Schema.option (.limSeq (isizeMax + 1) (.int .u8))).eachPart (RoomPart vecLayout) (some ([] : List (BitVec 8))) := by
  have h : ¬ Room false 1 (isizeMax + 1) := fun h => by
    have : (isizeMax + 1) * 1 ≤ isizeMax := h
    omega
  exact ⟨h, fun hr => h hr.1, ⟨trivial, nofun⟩, fun hr => h (hr.2 _ rfl).1⟩

/-- Nodes with a label and at most three nodes below them. -/
def boundedNodes : Decls where
  body _ := .record (.cons (.int .u16) (.cons (.dynamic .u8 (.limSeq 3 (.autobox (.hole 0)))) .nil))
  unsized _ _ := rfl

/-- The hypotheses for recursive types are met. -/
example : vecLayout.Uniform boundedNodes ∧ (∀ j, (boundedNodes.body j).HasRoom vecLayout) ∧ boundedNodes.Stable ∧ boundedNodes.Paced ∧ ∀ i, boundedNodes.body i ∈ [boundedNodes.body 0] := by
  refine ⟨fun n t => ?_, fun _ => ⟨trivial, ⟨?_, trivial⟩, trivial⟩, fun _ => ⟨rfl, rfl⟩, fun _ => rfl, fun _ => List.mem_singleton.mpr rfl⟩
  · cases t with
    | hole i => cases n <;> rfl
    | int t => rfl
    | _ => rfl
  · show 3 * 8 ≤ isizeMax
    exact Nat.le_trans (by decide) isizeMax_ge

/-- A node with two nodes below it: 24 bytes are reserved in each of the three. -/
example : (boundedNodes.unfold 2 0).reserved vecLayout ((1 : BitVec 16), [((2 : BitVec 16), [], ()), ((3 : BitVec 16), [], ())], ()) = 72 := by decide +kernel

end Verif.Props
