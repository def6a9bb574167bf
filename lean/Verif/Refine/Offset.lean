import Verif.ByteParser
import Verif.Spec.Cursor
/-
Refinement of `ContextOffset`-based parsers to the windowed cursor: representation invariant,
abstraction function, one lemma per primitive.
-/
namespace Verif

/-- `cur ≤ f₁ ≤ f₂ ≤ … ≤ abs`: the cursor is inside of all windows, windows are nested. -/
def Chain (abs : Nat) : Nat → List Nat → Prop
  | cur, [] => cur ≤ abs
  | cur, f :: fs => cur ≤ f ∧ Chain abs f fs

theorem Chain.le_head {abs cur : Nat} {fs : List Nat} (h : Chain abs cur fs) :
    cur ≤ fs.head?.getD abs := by
  cases fs with
  | nil => simpa [Chain] using h
  | cons f fs => simpa using h.1

theorem Chain.le_abs {abs cur : Nat} {fs : List Nat} (h : Chain abs cur fs) : cur ≤ abs := by
  induction fs generalizing cur with
  | nil => exact h
  | cons f fs ih => exact Nat.le_trans h.1 (ih h.2)

theorem Chain.head_le_abs {abs cur : Nat} {fs : List Nat} (h : Chain abs cur fs) :
    fs.head?.getD abs ≤ abs := by
  cases fs with
  | nil => simp
  | cons f fs => simpa using h.2.le_abs

theorem Chain.mono {abs cur cur' : Nat} {fs : List Nat} (h : Chain abs cur fs)
    (h' : cur' ≤ fs.head?.getD abs) : Chain abs cur' fs := by
  cases fs with
  | nil => simpa [Chain] using h'
  | cons f fs => exact ⟨by simpa using h', h.2⟩

/-- The representation invariant of a `ContextOffset` over a buffer. -/
structure OffInv (buf : Bytes) (c : ContextOffset) : Prop where
  small : buf.length ≤ isizeMax
  abs_eq : c.abs = buf.length
  chain : Chain c.abs c.cur c.frames

/-- Readable bytes when the cursor is at `cur` inside windows ending at `fs`. -/
def segTop (buf : Bytes) (cur : Nat) (fs : List Nat) : Bytes :=
  (buf.drop cur).take (fs.head?.getD buf.length - cur)

/-- What the enclosing scopes hold after the innermost window. -/
def segOuter (buf : Bytes) : List Nat → List Bytes
  | [] => []
  | f :: fs => segTop buf f fs :: segOuter buf fs

/-- Abstraction function. -/
def absCursor (buf : Bytes) (c : ContextOffset) : Cursor :=
  { pos := c.cur, top := segTop buf c.cur c.frames, outer := segOuter buf c.frames }

variable {buf : Bytes} {c : ContextOffset}

theorem OffInv.limit_eq (h : OffInv buf c) : c.limit = c.frames.head?.getD buf.length := by
  simp [ContextOffset.limit, h.abs_eq]

theorem OffInv.cur_le_limit (h : OffInv buf c) : c.cur ≤ c.limit := by
  rw [ContextOffset.limit]; exact h.chain.le_head

theorem OffInv.limit_le (h : OffInv buf c) : c.limit ≤ buf.length := by
  have := h.chain.head_le_abs
  rw [h.abs_eq] at this
  rw [h.limit_eq]; exact this

theorem OffInv.length_top (h : OffInv buf c) :
    (absCursor buf c).top.length = c.limit - c.cur := by
  have h1 := h.cur_le_limit
  have h2 := h.limit_le
  simp only [absCursor, segTop, List.length_take, List.length_drop, ← h.limit_eq]
  omega

theorem OffInv.withLimit (hb : buf.length ≤ isizeMax) : OffInv buf (ContextOffset.withLimit buf.length) :=
  ⟨hb, rfl, Nat.zero_le _⟩

theorem absCursor_withLimit : absCursor buf (ContextOffset.withLimit buf.length) = Cursor.start buf := by
  simp [absCursor, ContextOffset.withLimit, Cursor.start, segTop, segOuter]

theorem OffInv.viewLen (h : OffInv buf c) :
    c.limit = (absCursor buf c).pos + (absCursor buf c).top.length := by
  rw [h.length_top]
  have := h.cur_le_limit
  simp only [absCursor]; omega


theorem OffInv.uadd_cur (h : OffInv buf c) (p : Profile) {n : Nat} (hn : n ≤ isizeMax + 1) :
    uadd p c.cur n = some (c.cur + n) := by
  apply uadd_of_lt
  have h1 := h.cur_le_limit
  have h2 := h.limit_le
  have h3 := h.small
  simp only [usizeMod_eq] at *
  omega

theorem advance_ok (h : OffInv buf c) (p : Profile) {n : Nat} (hn : n ≤ (absCursor buf c).top.length) :
    c.advance p n = some ((c.cur, true), { c with cur := c.cur + n }) := by
  have h1 := h.cur_le_limit
  have h2 := h.limit_le
  have h3 := h.small
  rw [h.length_top] at hn
  have hn' : n ≤ isizeMax + 1 := by omega
  simp only [ContextOffset.advance, h.uadd_cur p hn']
  rw [if_pos (by omega)]

theorem advance_err (h : OffInv buf c) (p : Profile) {n : Nat} (hn' : p = .debug ∨ n ≤ isizeMax + 1)
    (hn : (absCursor buf c).top.length < n) :
    c.advance p n = some ((c.cur, false), c) ∨ (p = .debug ∧ isizeMax + 1 < n ∧ c.advance p n = none) := by
  have h1 := h.cur_le_limit
  rw [h.length_top] at hn
  by_cases hs : n ≤ isizeMax + 1
  · left
    simp only [ContextOffset.advance, h.uadd_cur p hs]
    rw [if_neg (by omega)]
  · have hp : p = .debug := by rcases hn' with h | h; exact h; omega
    subst hp
    simp only [ContextOffset.advance, uadd]
    by_cases hlt : c.cur + n < usizeMod
    · left
      rw [if_pos hlt]
      simp only
      rw [if_neg (by omega)]
    · right
      rw [if_neg hlt]
      exact ⟨trivial, by omega, rfl⟩

/-- Moving the cursor inside of the window. -/
theorem OffInv.advanced (h : OffInv buf c) {n : Nat} (hn : n ≤ (absCursor buf c).top.length) :
    OffInv buf { c with cur := c.cur + n } := by
  have h1 := h.cur_le_limit
  rw [h.length_top] at hn
  refine ⟨h.small, h.abs_eq, ?_⟩
  apply h.chain.mono
  have : c.frames.head?.getD c.abs = c.limit := rfl
  simp only [this]; omega

theorem absCursor_advanced (n : Nat) :
    absCursor buf { c with cur := c.cur + n } = (absCursor buf c).adv n := by
  simp only [absCursor, Cursor.adv, segTop, Cursor.mk.injEq, true_and, and_true]
  rw [List.drop_take, List.drop_drop]
  congr 1
  omega

theorem slice_of_inv (h : OffInv buf c) (p : Profile) {n : Nat} (hn : n ≤ (absCursor buf c).top.length) :
    VecBuffer.getSliceUnchecked p buf c.cur n = .val ((absCursor buf c).top.take n) := by
  have h1 := h.cur_le_limit
  have h2 := h.limit_le
  have h3 := h.small
  have hl := h.length_top
  have hn' : n ≤ isizeMax + 1 := by omega
  simp only [VecBuffer.getSliceUnchecked, h.uadd_cur p hn']
  rw [if_pos (by omega)]
  simp only [absCursor, segTop, List.take_take, ReadRes.val.injEq]
  congr 1
  rw [← h.limit_eq]; omega

theorem byte_of_inv {b : Byte} {t : Bytes} (hb : (absCursor buf c).top = b :: t) :
    buf[c.cur]? = some b := by
  have : (absCursor buf c).top[0]? = some b := by rw [hb]; rfl
  simp only [absCursor, segTop, List.getElem?_take, List.getElem?_drop] at this
  split at this
  · simpa using this
  · cases this

theorem setFit_ok (h : OffInv buf c) (p : Profile) {n : Nat} (hn : n ≤ (absCursor buf c).top.length) :
    ContextOffset.setFit p n c = .ok () { c with frames := (c.cur + n) :: c.frames } := by
  have h1 := h.cur_le_limit
  have h2 := h.limit_le
  have h3 := h.small
  have hl := h.length_top
  have hn' : n ≤ isizeMax + 1 := by omega
  simp only [ContextOffset.setFit, ContextOffset.index, h.uadd_cur p hn']
  have habs := h.abs_eq
  rw [if_neg (by omega)]
  simp only [ContextOffset.pushFrame, ContextOffset.detectError]
  cases hf : c.frames with
  | nil => simp
  | cons f fs =>
    have hlim := h.limit_eq
    rw [hf] at hlim
    simp only [List.head?_cons, Option.getD_some] at hlim
    simp only [List.head?_cons]
    rw [if_neg (by omega)]

theorem setFit_err (h : OffInv buf c) (p : Profile) {n : Nat} (hn' : p = .debug ∨ n ≤ isizeMax + 1)
    (hn : (absCursor buf c).top.length < n) :
    (∃ e, ContextOffset.setFit p n c = .err e c ∧ e.eraseOpen = Cursor.openErr) ∨
    (p = .debug ∧ buf.length < n ∧ ContextOffset.setFit p n c = .panic) := by
  have h1 := h.cur_le_limit
  have h2 := h.limit_le
  have h3 := h.small
  have hl := h.length_top

  cases hu : uadd p c.cur n with
  | none =>
    right
    have hp : p = .debug := by
      rcases hn' with h' | h'
      · exact h'
      · rw [h.uadd_cur p h'] at hu; cases hu
    subst hp
    refine ⟨rfl, ?_, by simp [ContextOffset.setFit, ContextOffset.index, hu]⟩
    have : ¬ n ≤ isizeMax + 1 := by intro h'; rw [h.uadd_cur _ h'] at hu; cases hu
    omega
  | some t =>
  have ht : t = c.cur + n := by
    rcases hn' with h' | h'
    · subst h'
      simp only [uadd] at hu
      split at hu
      · exact (Option.some.inj hu).symm
      · cases hu
    · rw [h.uadd_cur p h'] at hu; exact (Option.some.inj hu).symm
  subst ht
  simp only [ContextOffset.setFit, ContextOffset.index, hu, h.abs_eq]
  by_cases hgt : c.cur + n > buf.length
  · rw [if_pos hgt]
    simp only [usub]
    by_cases hle : n ≤ buf.length
    · left; simp [hle, ParseError.eraseOpen]
    · cases p with
      | debug => right; simp [hle]; omega
      | release => left; simp [hle, ParseError.eraseOpen]
  · rw [if_neg hgt]
    left
    simp only [ContextOffset.pushFrame, ContextOffset.detectError]
    cases hf : c.frames with
    | nil =>
      have hlim := h.limit_eq
      rw [hf] at hlim
      simp only [List.head?_nil, Option.getD_none] at hlim
      omega
    | cons f fs =>
      have hlim := h.limit_eq
      rw [hf] at hlim
      simp only [List.head?_cons, Option.getD_some] at hlim
      simp only [List.head?_cons]
      rw [if_pos (by omega)]
      simp [ParseError.eraseOpen]

theorem OffInv.opened (h : OffInv buf c) {n : Nat} (hn : n ≤ (absCursor buf c).top.length) :
    OffInv buf { c with frames := (c.cur + n) :: c.frames } := by
  have h1 := h.cur_le_limit
  rw [h.length_top] at hn
  refine ⟨h.small, h.abs_eq, ?_⟩
  refine ⟨by simp, h.chain.mono ?_⟩
  have : c.frames.head?.getD c.abs = c.limit := rfl
  simp only [this]; omega

theorem absCursor_opened (h : OffInv buf c) {n : Nat} (hn : n ≤ (absCursor buf c).top.length) :
    absCursor buf { c with frames := (c.cur + n) :: c.frames } =
      { absCursor buf c with
        top := (absCursor buf c).top.take n
        outer := (absCursor buf c).top.drop n :: (absCursor buf c).outer } := by
  have h1 := h.cur_le_limit
  have h2 := h.limit_le
  rw [h.length_top] at hn
  simp only [absCursor, segTop, segOuter, List.head?_cons, Option.getD_some, Cursor.mk.injEq, true_and,
    List.cons.injEq, and_true]
  rw [List.take_take, List.drop_take, List.drop_drop, ← h.limit_eq]
  constructor
  · congr 1; omega
  · congr 1; omega

/-- Unread bytes when the innermost window is dropped. -/
theorem segTop_merge {cur f : Nat} {fs : List Nat} (h : Chain buf.length cur (f :: fs)) :
    segTop buf cur fs = segTop buf cur (f :: fs) ++ segTop buf f fs := by
  have h1 := h.1
  have h2 := h.2.le_head
  have h3 := h.2.head_le_abs
  simp only [segTop, List.head?_cons, Option.getD_some]
  generalize fs.head?.getD buf.length = l at *
  have e : l - cur = (f - cur) + (l - f) := by omega
  rw [e, List.take_add, List.drop_drop]
  congr 3
  omega

theorem OffInv.closed {f : Nat} {fs : List Nat} (h : OffInv buf c) (hf : c.frames = f :: fs) :
    OffInv buf { c with frames := fs } := by
  have hc := h.chain
  rw [hf] at hc
  exact ⟨h.small, h.abs_eq, hc.2.mono (Nat.le_trans hc.1 hc.2.le_head)⟩

theorem absCursor_closed {f : Nat} {fs : List Nat} (h : OffInv buf c) (hf : c.frames = f :: fs) :
    absCursor buf { c with frames := fs } =
      { absCursor buf c with
        top := (absCursor buf c).top ++ segTop buf f fs
        outer := segOuter buf fs } := by
  have hc := h.chain
  rw [hf, h.abs_eq] at hc
  simp only [absCursor, hf, Cursor.mk.injEq, true_and, and_true]
  exact segTop_merge hc

theorem length_top_cons {f : Nat} {fs : List Nat} (h : OffInv buf c) (hf : c.frames = f :: fs) :
    (absCursor buf c).top.length = f - c.cur := by
  rw [h.length_top, ContextOffset.limit, hf]; rfl

theorem cur_le_cons {f : Nat} {fs : List Nat} (h : OffInv buf c) (hf : c.frames = f :: fs) :
    c.cur ≤ f := by
  have hc := h.chain
  rw [hf] at hc
  exact hc.1

end Verif
