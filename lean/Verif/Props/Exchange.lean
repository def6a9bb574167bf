import Verif.Lemmas.Exchange
/-
C94 for recursive types and recursive decoders, and C100 for messages of any types.
-/
namespace Verif.Props

open Codec Exchange

/-! ### C94: recursion -/

/-- C94: the decoders of recursive types keep to the methods of `Parser`, … -/
theorem C94_recursive_types (cfg : Cfg) (d : Decls) (ht : ∀ j, (d.body j).tame cfg.prof = true) (i : Nat) :
    (d.codec cfg i).Written := d.composed ht i

/-- C94: … and their implementations go together: recursive types can be used within hand-written types, and within all types
the library makes out of these. -/
theorem C94_recursive (cfg : Cfg) (d : Decls) (hst : d.Stable) (ht : ∀ j, (d.body j).tagsOk) {i : Nat} {k : Tail}
    (hk : (d.body i).tail = some k) :
    Contract cfg (d.codec cfg i) (fun a => d.Valid a ∧ (cfg.encLenOverride = true → d.EstOk a)) k (d.body i).nonempty none :=
  d.contract hst ht hk

/-- `fn f(b, p) { … f(b', p) … }`, where `F` is the body, with at most `n` calls within calls. -/
def calls {α β : Type} (F : (β → ParseFn α) → β → ParseFn α) : Nat → β → ParseFn α
  | 0 => fun _ _ _ _ => .diverge
  | n + 1 => F (calls F n)

/-- C94: a decoder may call itself, or other functions that call it, with any arguments: if its body is written with the methods
of `Parser` and such calls, all of C94 holds of it.  (`hm`: what a body does is determined by what the calls in it do, and it
does not end if one of them does not.) -/
theorem C94_recursive_decoders {α β : Type} {I : β → Prop} {Q : α → Prop} (F : (β → ParseFn α) → β → ParseFn α)
    (hF : ∀ g, (∀ b, I b → Written (g b) Q) → ∀ b, I b → Written (F g b) Q)
    (hm : ∀ g g' : β → ParseFn α, (∀ b σ P s, g b σ P s = .diverge ∨ g' b σ P s = g b σ P s) →
      ∀ b σ P s, F g b σ P s = .diverge ∨ F g' b σ P s = F g b σ P s)
    (b : β) (hb : I b) : Written (fun σ P => recM fun n => calls F n b σ P) Q := by
  refine .recur (f := fun n => calls F n b) (fun n => ?_) fun n σ P s => ?_
  · suffices h : ∀ n b, I b → Written (calls F n b) Q from h n b hb
    intro n
    induction n with
    | zero => exact fun _ _ => Composed.diverge
    | succ n ih => exact hF _ ih
  · suffices h : ∀ n b σ P s, calls F n b σ P s = .diverge ∨ calls F (n + 1) b σ P s = calls F n b σ P s from h n b σ P s
    intro n
    induction n with
    | zero => exact fun _ _ _ _ => .inl rfl
    | succ n ih => exact hm _ _ ih

/-- C94: … and this is recursion: the function does what its body does with calls of the function itself, as far as the calls in
the body are made in sequence (`hc`, see `recM_bind`). -/
theorem C94_recursion {α β : Type} (F : (β → ParseFn α) → β → ParseFn α)
    (hm : ∀ g g' : β → ParseFn α, (∀ b σ P s, g b σ P s = .diverge ∨ g' b σ P s = g b σ P s) →
      ∀ b σ P s, F g b σ P s = .diverge ∨ F g' b σ P s = F g b σ P s)
    (hc : ∀ g : Nat → β → ParseFn α, (∀ b σ P, Deeper fun n => g n b σ P) → ∀ b σ P,
      F (fun b σ P => recM fun n => g n b σ P) b σ P = recM fun n => F (g n) b σ P)
    (b : β) (σ : Type) (P : ParserOps σ) :
    (recM fun n => calls F n b σ P) = F (fun b σ P => recM fun n => calls F n b σ P) b σ P := by
  have hd : ∀ b σ P, Deeper fun n => calls F n b σ P := by
    suffices h : ∀ n b σ P s, calls F n b σ P s = .diverge ∨ calls F (n + 1) b σ P s = calls F n b σ P s from
      fun b σ P n s => h n b σ P s
    intro n
    induction n with
    | zero => exact fun _ _ _ _ => .inl rfl
    | succ n ih => exact hm _ _ ih
  rw [hc (calls F) hd b σ P]
  exact (recM_succ (hd b σ P)).symm

/-! ### C100: messages of any types -/

/-- C100: messages of any types whose implementations go together, hand-written and recursive ones included, make up a run
that is itself such a type: all of C94 holds of it. -/
theorem C100_any_types (cfg : Cfg) {tl : Tail} (e : Exchange) {W : e.Run → Prop} (ha : e.All fun c => c.Writes c.toBytes)
    (hk : e.Kept cfg tl W) : Contract cfg e.codec W tl false none := e.contract ha hk

/-- C100: written one after the other to any target, such messages arrive as their encodings one after the other. -/
theorem C100_any_types_written {τ β : Type} {T : TargetOps τ} {obs : τ → β} {feed : β → Byte → β} (hT : T.Documented obs feed)
    (e : Exchange) (ha : e.All fun c => c.Writes c.toBytes) (r : e.Run) (t : τ) :
    match e.bytes r with
    | none => e.write T r t = none
    | some b => ∃ t', e.write T r t = some (b.length, t') ∧ obs t' = b.foldl feed (obs t) := by
  have := e.writes ha (documented_lawful hT t) r [] t rfl
  cases h : e.bytes r with
  | none => rw [h] at this; exact this
  | some b => rw [h] at this; exact this

/-- C100: … and every parser reads them back, in the middle of any input, with any windows open, and leaves what follows. -/
theorem C100_any_types_round_trip (cfg : Cfg) {tl : Tail} (e : Exchange) {W : e.Run → Prop} (hk : e.Kept cfg tl W) (r : e.Run)
    (hr : W r) (b : Bytes) (hb : e.bytes r = some b) (rest : Bytes) (ht : tl.Allows rest) (k : Backend) (vs : List Bytes)
    (st : k.State) (hs : k.Holds (b ++ rest) vs st) :
    ∃ st', e.read (k.ops cfg.prof) st = .ok r st' ∧ k.Holds rest vs st' := by
  obtain ⟨d, h1, h2⟩ := means e W hk
  exact Parses.decodes (c := e.codec) h1 (h2 r b rest hr hb ht) k vs st hs

/-- C100: … and a run is told from every other run, and from the beginning of every other run, by its bytes. -/
theorem C100_any_types_unique (cfg : Cfg) (e : Exchange) {W : e.Run → Prop} (hk : e.Kept cfg .any W) (r r' : e.Run) (hr : W r)
    (hr' : W r') (b t : Bytes) (hb : e.bytes r = some b) (hb' : e.bytes r' = some (b ++ t)) : r = r' ∧ t = [] := by
  obtain ⟨d, _, h⟩ := means e W hk
  have h1 := h r b t hr hb trivial
  have h2 := h r' (b ++ t) [] hr' hb' trivial
  rw [List.append_nil, h1] at h2
  cases h2
  exact ⟨rfl, rfl⟩

/-- C100: … and of a run that was cut off anywhere, every parser says that input is missing (or panics, where debug builds do), if
this is so of each message. -/
theorem C100_any_types_cut (cfg : Cfg) (e : Exchange) {W : e.Run → Prop} (hk : e.Kept cfg .any W) (hc : e.Cuts cfg W) (r : e.Run)
    (hr : W r) (b v t : Bytes) (hb : e.bytes r = some b) (hl : b.length ≤ isizeMax) (hbt : b = v ++ t) (hn : t ≠ []) (k : Backend)
    (vs : List Bytes) (st : k.State) (hs : k.Holds v vs st) :
    (∃ er st', e.read (k.ops cfg.prof) st = .err er st' ∧ er.WantsMore t.length) ∨
    (k ≠ .slice ∧ cfg.prof = .debug ∧ e.read (k.ops cfg.prof) st = .panic) :=
  cuts e W hk hc r b v t hr hb hl hbt hn k vs st hs

/-- C100: … as it is of the types of the library, recursive ones included. -/
theorem C100_any_types_cut_library (cfg : Cfg) :
    (∀ s : Schema, s.tagsOk → s.tail = some .any →
      (s.codec cfg).Cuts cfg fun x => s.Valid x ∧ (cfg.encLenOverride = true → s.EstOk x)) ∧
    ∀ (d : Decls) (i : Nat), d.Stable → (∀ j, (d.body j).tagsOk) → (d.body i).tail = some .any →
      (d.codec cfg i).Cuts cfg fun a => d.Valid a ∧ (cfg.encLenOverride = true → d.EstOk a) := by
  refine ⟨fun s ht htl x b v t hv hb hl hbt hn k vs st hs => ?_, fun d i hst ht htl a b v t hv hb hl hbt hn k vs st hs => ?_⟩
  · have he : cfg.encLenOverride = false ∨ s.PrefixOk x := by
      cases ho : cfg.encLenOverride with
      | false => exact .inl rfl
      | true => exact .inr (hv.2 ho).prefixOk
    exact (C76_parse cfg s ht x hv.1 he b v t hb hl hbt hn htl k vs st hs).imp id And.right
  · have he : (cfg.encLenOverride = false ∧ d.Valid a) ∨ d.PrefixOk a := by
      cases ho : cfg.encLenOverride with
      | false => exact .inl ⟨rfl, hv.1⟩
      | true =>
        obtain ⟨n, x, rfl, h1, h2⟩ := hv.2 ho
        exact .inr ⟨n, x, rfl, h1, h2.prefixOk⟩
    exact (C76_recursive cfg d hst ht htl a he b v t hb hl hbt hn k vs st hs).imp id And.right

/-- C100: whatever the bytes: if the types are written with the methods of `Parser`, then so is reading a run of them, and it
reads nothing outside of the buffer and does the same with every parser. -/
theorem C100_any_types_input (cfg : Cfg) (e : Exchange) (h : e.All fun c => c.Written) (buf : Bytes) (hb : buf.length ≤ isizeMax)
    (k k' : Backend) :
    e.codec.Written ∧ e.codec.tryDecode cfg k buf ≠ .ub ∧ ((cfg.completeParse = true → k ≠ .slice ∧ k' ≠ .slice) →
      (∃ a, e.codec.tryDecode cfg k buf = .ok a () ∧ e.codec.tryDecode cfg k' buf = .ok a ()) ∨
      (Fails (e.codec.tryDecode cfg k buf) ∧ Fails (e.codec.tryDecode cfg k' buf)) ∨
      (e.codec.tryDecode cfg k buf = .diverge ∧ e.codec.tryDecode cfg k' buf = .diverge)) :=
  ⟨e.written h, C94_no_ub (e.written h) cfg buf hb k, C94_parsers_agree (e.written h) cfg buf hb k k'⟩

/-- C100: … and what has arrived of such messages can be read at once: when `n` bytes of a run and of what follows it are there,
the first `m` messages can be read if and only if their encodings are there; what is read then are the messages sent. -/
theorem C100_any_types_progress (cfg : Cfg) (e : Exchange) {W : e.Run → Prop} (hk : e.Kept cfg .any W) (hc : e.Cuts cfg W) (r : e.Run)
    (hr : W r) (b rest : Bytes) (hb : e.bytes r = some b) (hl : b.length ≤ isizeMax) (m n : Nat) :
    ∃ b1, (e.take m).bytes (Run.take m e r) = some b1 ∧ ∀ (k : Backend) (vs : List Bytes) (st : k.State),
      k.Holds ((b ++ rest).take n) vs st →
      (b1.length ≤ n ↔ ∃ r' st', (e.take m).read (k.ops cfg.prof) st = .ok r' st') ∧
      ∀ r' st', (e.take m).read (k.ops cfg.prof) st = .ok r' st' →
        r' = Run.take m e r ∧ k.Holds (((b ++ rest).take n).drop b1.length) vs st' := by
  obtain ⟨b1, b2, h1, rfl⟩ := bytes_take m e r b hb
  refine ⟨b1, h1, fun k vs st hs => ?_⟩
  rw [List.length_append] at hl
  by_cases hn : b1.length ≤ n
  · have e : ((b1 ++ b2) ++ rest).take n = b1 ++ (b2 ++ rest).take (n - b1.length) := by
      rw [List.append_assoc, List.take_append, List.take_of_length_le hn]
    rw [e] at hs ⊢
    obtain ⟨st', h2, h3⟩ := C100_any_types_round_trip cfg _ (hk.take m) _ ⟨r, hr, rfl⟩ b1 h1 _ trivial k vs st hs
    refine ⟨⟨fun _ => ⟨_, st', h2⟩, fun _ => hn⟩, fun r' st'' h => ?_⟩
    rw [h2] at h
    cases h
    rw [List.drop_left]
    exact ⟨rfl, h3⟩
  · have e' : ((b1 ++ b2) ++ rest).take n = b1.take n := by
      rw [List.append_assoc, List.take_append_of_le_length (by omega)]
    rw [e'] at hs ⊢
    have hno : ∀ r' st', (e.take m).read (k.ops cfg.prof) st ≠ .ok r' st' := fun r' st' h => by
      rcases C100_any_types_cut cfg (e.take m) (hk.take m) (hc.take m) _ ⟨r, hr, rfl⟩ b1 (b1.take n) (b1.drop n) h1 (by omega)
        (List.take_append_drop n b1).symm (fun h => by have := congrArg List.length h; simp at this; omega) k vs st hs with
        ⟨e, st', h2, _⟩ | ⟨_, _, h2⟩ <;>
        · rw [h2] at h
          cases h
    exact ⟨⟨fun h => absurd h hn, fun ⟨r', st', h⟩ => absurd h (hno r' st')⟩, fun r' st' h => absurd h (hno r' st')⟩

/-- C100: … and a run of such messages that was read from any bytes is written as these bytes again, if this is so of each
message, … -/
theorem C100_any_types_rewrite (cfg : Cfg) (e : Exchange) (h : e.All fun c => c.Rewrites cfg) (k : Backend) (v : Bytes)
    (vs : List Bytes) (st st' : k.State) (hs : k.Holds v vs st) (r : e.Run) (he : e.read (k.ops cfg.prof) st = .ok r st') :
    ∃ b rest, e.bytes r = some b ∧ v = b ++ rest ∧ k.Holds rest vs st' := e.rewrites h k v vs st st' r hs he

/-- C100: … as it is of the types of the library with a canonical encoding, recursive ones included. -/
theorem C100_any_types_rewrite_library (cfg : Cfg) (hc : cfg.encLenOverride = false) :
    (∀ s : Schema, s.sized = true → s.canonical cfg = true → (s.codec cfg).Rewrites cfg) ∧
    ∀ (d : Decls) (i : Nat), (∀ j, (d.body j).sized = true) → (∀ j, (d.body j).canonical cfg = true) → (d.codec cfg i).Rewrites cfg :=
  ⟨fun s hz h k v vs st st' x hs he => C47_canonical cfg hc s hz h k v vs st st' hs x he,
    fun d _ hz h k v vs st st' x hs he => C52_canonical cfg d hc hz h k v vs st st' hs x he⟩

/-! ### examples -/

/-- A binary tree. -/
inductive Tree where
  | leaf
  | node (l r : Tree)

/-- `match p.consume_byte()? { 0 => Ok(Leaf), _ => { let l = Tree::parse(p)?; let r = Tree::parse(p)?; Ok(Node(l, r)) } }` -/
def treeBody (g : Unit → ParseFn Tree) : Unit → ParseFn Tree := fun _ σ P => P.consumeByte >>= fun b =>
  if b = 0 then pure .leaf else g () σ P >>= fun l => g () σ P >>= fun r => pure (.node l r)

theorem treeBody_deeper (g g' : Unit → ParseFn Tree) (h : ∀ b σ P s, g b σ P s = .diverge ∨ g' b σ P s = g b σ P s) (b : Unit)
    (σ : Type) (P : ParserOps σ) (s : σ) : treeBody g b σ P s = .diverge ∨ treeBody g' b σ P s = treeBody g b σ P s := by
  have hg : Deeper fun n => (if n = 0 then g () σ P else g' () σ P) := by
    rintro (_ | n) s
    · exact h () σ P s
    · exact .inr rfl
  have := Deeper.bind (m := fun _ => P.consumeByte) (f := fun n b => if b = 0 then pure Tree.leaf else
    (if n = 0 then g () σ P else g' () σ P) >>= fun l => (if n = 0 then g () σ P else g' () σ P) >>= fun r => pure (.node l r))
    (fun _ _ => .inr rfl) (fun x => ?_) 0 s
  · exact this
  · by_cases hx : x = 0
    · simp only [if_pos hx]; exact fun _ _ => .inr rfl
    · simp only [if_neg hx]
      exact Deeper.bind hg fun _ => Deeper.bind hg fun _ _ _ => .inr rfl

example : Written (fun σ P => recM fun n => calls treeBody n () σ P) (fun _ => True) :=
  C94_recursive_decoders (I := fun _ => True) treeBody
    (fun g h b _ => .bind .consumeByte fun x _ => Composed.ite (fun _ => .pure _ trivial) fun _ =>
      .bind (h () trivial) fun _ _ => .bind (h () trivial) fun _ _ => .pure _ trivial) treeBody_deeper () trivial

/-- It is the function that calls itself. -/
example (σ : Type) (P : ParserOps σ) :
    (recM fun n => calls treeBody n () σ P) = P.consumeByte >>= fun b => if b = 0 then pure .leaf else
      (recM fun n => calls treeBody n () σ P) >>= fun l => (recM fun n => calls treeBody n () σ P) >>= fun r => pure (.node l r) :=
  C94_recursion treeBody treeBody_deeper (fun g hg _ σ P => by
    have hg := hg () σ P
    unfold treeBody
    rw [recM_bind (fun _ _ => .inr rfl) fun x => ?_, recM_const]
    · congr 1
      funext x
      by_cases hx : x = 0
      · simp only [if_pos hx]; exact (recM_const _).symm
      · simp only [if_neg hx]
        rw [recM_bind hg fun _ => Deeper.bind hg fun _ _ _ => .inr rfl]
        congr 1
        funext l
        rw [recM_bind hg fun _ _ _ => .inr rfl]
        congr 1
        funext r
        exact (recM_const _).symm
    · by_cases hx : x = 0
      · simp only [if_pos hx]; exact fun _ _ => .inr rfl
      · simp only [if_neg hx]
        exact Deeper.bind hg fun _ => Deeper.bind hg fun _ _ _ => .inr rfl) () σ P

/-- Read with `SliceParser`: a node with two leaves, and a byte that is left. -/
example : ∃ n, calls treeBody n () SliceParser SliceParser.ops ⟨[[1, 0, 0, 9]]⟩ = .ok (.node .leaf .leaf) ⟨[[9]]⟩ := ⟨3, rfl⟩

/-- `n` messages of the same type … -/
def several {α : Type} (c : Codec α) : Nat → Exchange
  | 0 => .done
  | n + 1 => .msg c fun _ => several c n

/-- … each of which satisfies `V`. -/
def Each {α : Type} {c : Codec α} (V : α → Prop) : (n : Nat) → (several c n).Run → Prop
  | 0, _ => True
  | n + 1, ⟨x, r⟩ => V x ∧ Each V n r

theorem several_kept {α : Type} {c : Codec α} {cfg : Cfg} {V : α → Prop} {ne : Bool} {w : Option Nat}
    (h : Contract cfg c V .any ne w) : ∀ n, (several c n).Kept cfg .any (Each V n)
  | 0 => trivial
  | n + 1 => ⟨V, ne, w, fun _ hr => hr.1, .inl ⟨h, fun x hx => by
      have e : (fun r => Each V (n + 1) ⟨x, r⟩) = Each (c := c) V n := funext fun r => propext ⟨fun h => h.2, fun h => ⟨hx, h⟩⟩
      show (several c n).Kept cfg .any fun r => Each V (n + 1) ⟨x, r⟩
      rw [e]
      exact several_kept h n⟩⟩

theorem several_all {α : Type} {c : Codec α} {P : ∀ {α : Type}, Codec α → Prop} (h : P c) : ∀ n, (several c n).All P
  | 0 => trivial
  | n + 1 => ⟨h, fun _ => several_all h n⟩

/-- A hand-written message, and as many recursive ones as it says: `Pair` (src/parse/mod.rs:1334-1360), and values of the type
`U8Seq` (src/autobox.rs:23-36). -/
noncomputable def pairThenSeqs (cfg : Cfg) : Exchange := .msg pairCodec fun x => several (u8Seq.codec cfg 0) x.2.toNat

example (cfg : Cfg) : (pairThenSeqs cfg).Kept cfg .any
    fun r => Each (fun a => u8Seq.Valid a ∧ (cfg.encLenOverride = true → u8Seq.EstOk a)) _ r.2 :=
  ⟨fun _ => True, _, _, fun _ _ => trivial, .inl ⟨C94_pair cfg, fun _ _ =>
    several_kept (C94_recursive cfg u8Seq (fun _ => ⟨rfl, rfl⟩) (fun _ => ⟨trivial, trivial, trivial⟩) rfl) _⟩⟩

theorem several_cuts {α : Type} {c : Codec α} {cfg : Cfg} {V : α → Prop} (h : c.Cuts cfg V) :
    ∀ n, (several c n).Cuts cfg (Each V n)
  | 0 => trivial
  | n + 1 => ⟨V, fun _ hr => hr.1, h, fun x hx => by
      have e : (fun r => Each V (n + 1) ⟨x, r⟩) = Each (c := c) V n := funext fun r => propext ⟨fun h => h.2, fun h => ⟨hx, h⟩⟩
      show (several c n).Cuts cfg fun r => Each V (n + 1) ⟨x, r⟩
      rw [e]
      exact several_cuts h n⟩

example (cfg : Cfg) : (several (u8Seq.codec cfg 0) 3).Cuts cfg
    (Each (fun a => u8Seq.Valid a ∧ (cfg.encLenOverride = true → u8Seq.EstOk a)) 3) :=
  several_cuts ((C100_any_types_cut_library cfg).2 u8Seq 0 (fun _ => ⟨rfl, rfl⟩) (fun _ => ⟨trivial, trivial, trivial⟩) rfl) 3

example (cfg : Cfg) (hc : cfg.encLenOverride = false) : (several (u8Seq.codec cfg 0) 3).All fun c => c.Rewrites cfg :=
  several_all (P := fun c => c.Rewrites cfg) ((C100_any_types_rewrite_library cfg hc).2 u8Seq 0 (fun _ => rfl) (fun _ => rfl)) 3

/-- The first two of three. -/
example (cfg : Cfg) : ((several (u8Seq.codec cfg 0) 3).take 2).bytes (Run.take 2 (several (u8Seq.codec cfg 0) 3) ⟨u8Seq57, u8Seq57, u8Seq57, ()⟩) =
    some [5, 0xff, 7, 0, 5, 0xff, 7, 0] := rfl

example (cfg : Cfg) : (pairThenSeqs cfg).All fun c => c.Writes c.toBytes :=
  ⟨(C94_pair cfg).writes, fun _ => several_all (P := fun c => c.Writes c.toBytes) (u8Seq.writes cfg 0) _⟩

example (cfg : Cfg) : (pairThenSeqs cfg).All fun c => c.Written :=
  ⟨pair_written, fun _ => several_all (P := fun c => c.Written) (C94_recursive_types cfg u8Seq (fun _ => rfl) 0) _⟩

/-- One such run. -/
example (cfg : Cfg) : (pairThenSeqs cfg).bytes ⟨(⟨[8, 9], rfl⟩, (2 : BitVec 8)), u8Seq57, u8Seq57, ()⟩ =
    some [8, 9, 2, 5, 0xff, 7, 0, 5, 0xff, 7, 0] := rfl

end Verif.Props
