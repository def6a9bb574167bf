import Verif.HashState
import Verif.Lemmas.Hash
import Verif.Props.Hash
import Verif.Props.CompareBuilders
/-
C71: builders, hex strings and left-over states as keys of hash maps.
-/
namespace Verif.Props

open HashOf

/-- All numbers in the value are of type `usize`, as they are in every value of the Rust type. -/
def SegsFit (s : SplitVec Byte) : Prop :=
  s.buffer.length < usizeMod ∧ s.spans.stable.length < usizeMod ∧ (∀ n ∈ s.spans.stable, n < usizeMod) ∧
    (∀ n, s.spans.active = some n → n < usizeMod) ∧ s.spans.cache < usizeMod

/-- The same for left-over states. -/
def LeftFit : Leftover → Prop
  | .empty => True
  | .windowless b => b.length < usizeMod
  | .windowed s => SegsFit s

private theorem bytes_split (e : Endian) {a b t t' : Bytes} (ha : a.length < usizeMod) (hb : b.length < usizeMod)
    (h : flat e (bytes a) ++ t = flat e (bytes b) ++ t') : a = b ∧ t = t' := by
  refine pf_bytes a b (fun c hc => ?_) (fun c hc => ?_) t t' h
  · simp only [bytes, List.mem_cons, List.not_mem_nil, or_false] at hc
    rcases hc with rfl | rfl
    · exact ha
    · trivial
  · simp only [bytes, List.mem_cons, List.not_mem_nil, or_false] at hc
    rcases hc with rfl | rfl
    · exact hb
    · trivial

private theorem usizes_split (e : Endian) {a b : List Nat} {t t' : Bytes} (la : a.length < usizeMod) (lb : b.length < usizeMod)
    (ha : ∀ n ∈ a, n < usizeMod) (hb : ∀ n ∈ b, n < usizeMod)
    (h : flat e (usizes e a) ++ t = flat e (usizes e b) ++ t') : a = b ∧ t = t' := by
  rw [usizeMod_bytes] at la lb
  simp only [usizeMod_bytes] at ha hb
  simp only [usizes, flat_cons, flat_nil, HashCall.bytes, List.append_nil, List.append_assoc] at h
  obtain ⟨hl, h⟩ := endian_split e la lb h
  exact digits_split e a b hl ha hb t t' h

private theorem usize_split (e : Endian) {a b : Nat} {t t' : Bytes} (la : a < usizeMod) (lb : b < usizeMod)
    (h : flat e (usize a) ++ t = flat e (usize b) ++ t') : a = b ∧ t = t' := by
  rw [usizeMod_bytes] at la lb
  simp only [usize, flat_cons, flat_nil, HashCall.bytes, List.append_nil] at h
  exact endian_split e la lb h

private theorem active_split (e : Endian) {a b : Option Nat} {t t' : Bytes} (la : ∀ n, a = some n → n < usizeMod)
    (lb : ∀ n, b = some n → n < usizeMod)
    (h : flat e (option usize a) ++ t = flat e (option usize b) ++ t') : a = b ∧ t = t' := by
  have h0 : 0 < 256 ^ usizeBytes := by rw [← usizeMod_bytes]; decide
  have h1 : 1 < 256 ^ usizeBytes := by rw [← usizeMod_bytes]; decide
  cases a <;> cases b <;> simp only [option, flat_cons, flat_nil, HashCall.bytes, List.append_assoc, List.nil_append] at h
  · exact ⟨rfl, (endian_split e h0 h0 h).2⟩
  · exact absurd (endian_split e h0 h1 h).1 (by decide)
  · exact absurd (endian_split e h1 h0 h).1 (by decide)
  · have := usize_split e (la _ rfl) (lb _ rfl) (endian_split e h1 h1 h).2
    exact ⟨by rw [this.1], this.2⟩

private theorem segs_split (e : Endian) {s t : SplitVec Byte} (hs : SegsFit s) (ht : SegsFit t) {x y : Bytes}
    (h : flat e (s.hash e) ++ x = flat e (t.hash e) ++ y) : s = t ∧ x = y := by
  obtain ⟨b, st, a, c⟩ := s
  obtain ⟨b', st', a', c'⟩ := t
  obtain ⟨s1, s2, s3, s4, s5⟩ := hs
  obtain ⟨t1, t2, t3, t4, t5⟩ := ht
  simp only [SplitVec.hash, SpanBuffer.hash, flat_append, List.append_assoc] at h
  obtain ⟨e1, h⟩ := bytes_split e s1 t1 h
  obtain ⟨e2, h⟩ := usizes_split e s2 t2 s3 t3 h
  obtain ⟨e3, h⟩ := active_split e s4 t4 h
  obtain ⟨e4, h'⟩ := usize_split e s5 t5 h
  simp only at e1 e2 e3 e4
  subst e1 e2 e3 e4
  exact ⟨rfl, h'⟩

private theorem left_split (e : Endian) {l m : Leftover} (hl : LeftFit l) (hm : LeftFit m) {x y : Bytes}
    (h : flat e (l.hash e) ++ x = flat e (m.hash e) ++ y) : l = m ∧ x = y := by
  have h0 : 0 < 256 ^ usizeBytes := by rw [← usizeMod_bytes]; decide
  have h1 : 1 < 256 ^ usizeBytes := by rw [← usizeMod_bytes]; decide
  have h2 : 2 < 256 ^ usizeBytes := by rw [← usizeMod_bytes]; decide
  cases l <;> cases m <;> simp only [Leftover.hash, flat_cons, flat_nil, HashCall.bytes, List.append_assoc, List.nil_append] at h
  · exact ⟨rfl, (endian_split e h0 h0 h).2⟩
  · exact absurd (endian_split e h0 h1 h).1 (by decide)
  · exact absurd (endian_split e h0 h2 h).1 (by decide)
  · exact absurd (endian_split e h1 h0 h).1 (by decide)
  · have := bytes_split e hl hm (endian_split e h1 h1 h).2
    exact ⟨by rw [this.1], this.2⟩
  · exact absurd (endian_split e h1 h2 h).1 (by decide)
  · exact absurd (endian_split e h2 h0 h).1 (by decide)
  · exact absurd (endian_split e h2 h1 h).1 (by decide)
  · have := segs_split e hl hm (endian_split e h2 h2 h).2
    exact ⟨by rw [this.1], this.2⟩

/-- The bytes fed by calls to a hasher that implements `write` only. -/
def fedBy (e : Endian) (cs : List HashCall) : Bytes := cs.foldl (collect.toHasher e).call []

private theorem fedBy_eq (e : Endian) (cs : List HashCall) : fedBy e cs = flat e cs := by
  have h1 : ∀ (bs acc : Bytes), bs.foldl (fun s b => s ++ [b]) acc = acc ++ bs := by
    intro bs
    induction bs with
    | nil => intro acc; simp
    | cons b bs ih => intro acc; rw [List.foldl_cons, ih]; simp
  have h2 : ∀ (cs : List HashCall) (acc : Bytes),
      cs.foldl (fun (s : Bytes) c => (c.bytes e).foldl (fun s b => s ++ [b]) s) acc = acc ++ flat e cs := by
    intro cs
    induction cs with
    | nil => intro acc; simp [flat]
    | cons c cs ih =>
      intro acc
      rw [List.foldl_cons, ih, flat_cons, ← List.append_assoc, h1]
  exact (h2 cs []).trans (List.nil_append _)

private theorem fed_iff {α : Type} {e : Endian} {f : α → List HashCall} {x y : α}
    (h : ∀ t t', flat e (f x) ++ t = flat e (f y) ++ t' → x = y ∧ t = t') :
    (f x = f y ↔ x = y) ∧ (x ≠ y → ¬fedBy e (f x) <+: fedBy e (f y)) := by
  refine ⟨⟨fun he => (h [] [] (by rw [he])).1, fun he => by rw [he]⟩, ?_⟩
  rintro hne ⟨t, he⟩
  rw [fedBy_eq, fedBy_eq] at he
  exact hne (h t [] (by rw [he, List.append_nil])).1

/-- C71: `MemoBuilder`s make the same calls on a hasher exactly if they are `==`; otherwise neither feeds a beginning of
what the other feeds. -/
theorem C71_memo_builder (e : Endian) (b c : MemoBuilder) (hb : SegsFit b.segs) (hc : SegsFit c.segs) :
    (b.hash e = c.hash e ↔ b.eqv c = true) ∧ (b.eqv c = false → ¬fedBy e (b.hash e) <+: fedBy e (c.hash e)) := by
  have key := fed_iff (e := e) (f := SplitVec.hash e) (x := b.segs) (y := c.segs) fun t t' h => segs_split e hb hc h
  refine ⟨by rw [MemoBuilder.eqv, eqv_iff]; exact key.1, fun h => key.2 fun he => ?_⟩
  rw [MemoBuilder.eqv, (eqv_iff _ _).mpr he] at h
  cases h

/-- C71: what a `MemoBuilder` feeds to a hasher is decided by the runs of bytes written to it and whether the last one
is still open. -/
theorem C71_memo_runs (e : Endian) (st st' : BuildStart) (ops ops' : List BuildOp)
    (hb : SegsFit ((MemoBuilder.start st).runOps ops).2.segs) (hc : SegsFit ((MemoBuilder.start st').runOps ops').2.segs) :
    ((MemoBuilder.start st).runOps ops).2.hash e = ((MemoBuilder.start st').runOps ops').2.hash e ↔
      BuildOp.runs st.run ops = BuildOp.runs st'.run ops' ∧
      BuildOp.isOpen st.run.isSome ops = BuildOp.isOpen st'.run.isSome ops' :=
  (C71_memo_builder e _ _ hb hc).1.trans (C65_memo st st' ops ops').1

/-- C71: hex strings are hashed as their bytes. -/
theorem C71_hex_string (e : Endian) (h h' : HexString) (hh : h.bytes.length < usizeMod) (hh' : h'.bytes.length < usizeMod) :
    (h.hash = h'.hash ↔ h.bytes = h'.bytes) ∧ (h.bytes ≠ h'.bytes → ¬fedBy e h.hash <+: fedBy e h'.hash) :=
  fed_iff (e := e) (f := HashOf.bytes) fun t t' he => bytes_split e hh hh' he

/-- C71: left-over states make the same calls on a hasher exactly if they are the same. -/
theorem C71_leftover (e : Endian) (l m : Leftover) (hl : LeftFit l) (hm : LeftFit m) :
    (l.hash e = m.hash e ↔ l = m) ∧ (l ≠ m → ¬fedBy e (l.hash e) <+: fedBy e (m.hash e)) :=
  fed_iff (e := e) fun t t' he => left_split e hl hm he

/-! ### examples -/

example : SegsFit ((MemoBuilder.start .new).runOps [.pushOne 1, .resolve, .pushMany [2, 3]]).2.segs := by
  unfold SegsFit; decide
example : ((MemoBuilder.start .new).runOps [.pushOne 1]).2.hash .little ≠
    ((MemoBuilder.start .new).runOps [.pushOne 1, .resolve]).2.hash .little := by decide
example : LeftFit (.windowless [1]) := by show 1 < usizeMod; decide
example : (Leftover.windowless []).hash .big ≠ Leftover.empty.hash .big := by decide

end Verif.Props
