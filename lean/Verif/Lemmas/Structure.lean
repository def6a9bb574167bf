import Verif.Lemmas.RoundTrip
/-
Structural laws of the decoders of the wire format.
-/
namespace Verif

variable {α β : Type}

/-! ### reading prefixes -/

namespace ReadsPrefix

theorem check {ε : Type} (r : Except ε α) (f : ε → ParseError) : ReadsPrefix (Dec.check r f) := by
  unfold Dec.check
  split
  · exact pure _
  · exact throw _

theorem unit : ReadsPrefix Dec.unit := pure _
theorem bool : ReadsPrefix Dec.bool := bind byte fun _ => ite (pure _) (ite (pure _) (throw _))
theorem int (t : IntTy) : ReadsPrefix (Dec.int t) := map _ (take _)
theorem f64 : ReadsPrefix Dec.f64 := map _ (take _)
theorem rangedInt (t : IntTy) (min max : Int) : ReadsPrefix (Dec.rangedInt t min max) :=
  bind (int t) fun _ => check _ _
theorem rangedFloat (min max : BitVec 64) : ReadsPrefix (Dec.rangedFloat min max) := bind f64 fun _ => check _ _
theorem byteArr (n : Nat) : ReadsPrefix (Dec.byteArr n) :=
  bind (take n) fun _ => dite (fun _ => pure _) fun _ => panic
theorem bytes : ReadsPrefix Dec.bytes := rest
theorem string : ReadsPrefix Dec.string := map _ rest
theorem zarithN : ReadsPrefix Dec.zarithN := map _ (until_ _)
theorem zarithZ : ReadsPrefix Dec.zarithZ := map _ (until_ _)
theorem tag (w : TagWidth) (tags : List Nat) : ReadsPrefix (Dec.tag w tags) :=
  bind (map _ (take _)) fun _ => ite (pure _) (ite (throw _) (throw _))
theorem option {d : D α} (h : ReadsPrefix d) : ReadsPrefix (Dec.option d) :=
  bind (tag _ _) fun _ => ite (map _ h) (pure _)
theorem nullable {d : D α} (h : ReadsPrefix d) : ReadsPrefix (Dec.nullable d) := ifEmpty (pure _) (map _ h)
theorem lenPref (S : LenPref) : ReadsPrefix (Dec.lenPref S) := bind (map _ (take _)) fun _ => ite (pure _) (throw _)
theorem dynamic (S : LenPref) (d : D α) : ReadsPrefix (Dec.dynamic S d) := bind (lenPref S) fun n => window n d
theorem vpadded (cfg : Cfg) (n : Nat) (d : D α) : ReadsPrefix (Dec.vpadded cfg n d) := by
  intro v a r h
  simp only [Dec.vpadded] at h
  split at h
  · exact window _ d _ _ _ h
  · split at h <;> cases h
theorem padded (cfg : Cfg) (n : Nat) {d : D α} (h : ReadsPrefix d) : ReadsPrefix (Dec.padded cfg n d) :=
  bind h fun _ => bind (take n) fun _ => ite (throw _) (pure _)
theorem seq (d : D α) : ReadsPrefix (Dec.seq d) := many d
theorem fixSeq (n : Nat) {d : D α} (h : ReadsPrefix d) : ReadsPrefix (Dec.fixSeq n d) :=
  bind (upTo h n) fun _ => ite (pure _) (throw _)
theorem limSeq (n : Nat) {d : D α} (h : ReadsPrefix d) : ReadsPrefix (Dec.limSeq n d) := manyMax _ h n
theorem cstyle (w : TagWidth) (tags : List Nat) : ReadsPrefix (Dec.cstyle w tags) :=
  bind (tag w tags) fun _ => dite (fun _ => pure _) fun _ => panic
theorem hole : ReadsPrefix Dec.hole := fun _ _ _ h => by cases h
theorem vnil (t : Nat) : ReadsPrefix (Dec.vnil t) := panic
theorem vcons (tag : Nat) {d : D α} {dv : Nat → D β} (h : ReadsPrefix d) (hv : ∀ t, ReadsPrefix (dv t)) (t : Nat) :
    ReadsPrefix (Dec.vcons tag d dv t) := ite (map _ h) (map _ (hv t))
theorem data (w : TagWidth) (tags : List Nat) {dv : Nat → D β} (hv : ∀ t, ReadsPrefix (dv t)) :
    ReadsPrefix (Dec.data w tags dv) := bind (tag w tags) hv
theorem fnil : ReadsPrefix Dec.fnil := pure _
theorem fcons {d : D α} {df : D β} (h : ReadsPrefix d) (hf : ReadsPrefix df) : ReadsPrefix (Dec.fcons d df) :=
  bind h fun _ => bind hf fun _ => pure _

end ReadsPrefix

/-! ### locality -/

namespace Local

theorem check {ε : Type} (r : Except ε α) (f : ε → ParseError) : Local (Dec.check r f) := by
  unfold Dec.check
  split
  · exact pure _
  · exact throw _

theorem unit : Local Dec.unit := pure _
theorem bool : Local Dec.bool := bind byte fun _ => ite (pure _) (ite (pure _) (throw _))
theorem int (t : IntTy) : Local (Dec.int t) := map _ (take _)
theorem f64 : Local Dec.f64 := map _ (take _)
theorem rangedInt (t : IntTy) (min max : Int) : Local (Dec.rangedInt t min max) :=
  bind (int t) fun _ => check _ _
theorem rangedFloat (min max : BitVec 64) : Local (Dec.rangedFloat min max) := bind f64 fun _ => check _ _
theorem byteArr (n : Nat) : Local (Dec.byteArr n) :=
  bind (take n) fun _ => dite (fun _ => pure _) fun _ => panic
theorem zarithN : Local Dec.zarithN := map _ (until_ _)
theorem zarithZ : Local Dec.zarithZ := map _ (until_ _)
theorem tag (w : TagWidth) (tags : List Nat) : Local (Dec.tag w tags) :=
  bind (map _ (take _)) fun _ => ite (pure _) (ite (throw _) (throw _))
theorem option {d : D α} (h : Local d) : Local (Dec.option d) :=
  bind (tag _ _) fun _ => ite (map _ h) (pure _)
theorem lenPref (S : LenPref) : Local (Dec.lenPref S) := bind (map _ (take _)) fun _ => ite (pure _) (throw _)
theorem dynamic (S : LenPref) (d : D α) : Local (Dec.dynamic S d) := bind (lenPref S) fun n => window n d
theorem padded (cfg : Cfg) (n : Nat) {d : D α} (h : Local d) : Local (Dec.padded cfg n d) :=
  bind h fun _ => bind (take n) fun _ => ite (throw _) (pure _)
theorem fixSeq (n : Nat) {d : D α} (h : Local d) : Local (Dec.fixSeq n d) := by
  intro v l r t hd
  obtain ⟨l', r', h1, h2⟩ := D.bind_eq_ok.mp hd
  split at h2
  · rename_i hl
    cases h2
    refine D.bind_eq_ok.mpr ⟨l, _, upTo_full h n v l r t h1 hl, ?_⟩
    rw [if_pos hl]
    rfl
  · cases h2
theorem cstyle (w : TagWidth) (tags : List Nat) : Local (Dec.cstyle w tags) :=
  bind (tag w tags) fun _ => dite (fun _ => pure _) fun _ => panic
theorem hole : Local Dec.hole := fun _ _ _ _ h => by cases h
theorem vnil (t : Nat) : Local (Dec.vnil t) := panic
theorem vcons (tag : Nat) {d : D α} {dv : Nat → D β} (h : Local d) (hv : ∀ t, Local (dv t)) (t : Nat) :
    Local (Dec.vcons tag d dv t) := ite (map _ h) (map _ (hv t))
theorem data (w : TagWidth) (tags : List Nat) {dv : Nat → D β} (hv : ∀ t, Local (dv t)) :
    Local (Dec.data w tags dv) := bind (tag w tags) hv
theorem fnil : Local Dec.fnil := pure _
theorem fcons {d : D α} {df : D β} (h : Local d) (hf : Local df) : Local (Dec.fcons d df) :=
  bind h fun _ => bind hf fun _ => pure _

end Local

/-! ### totality -/

theorem Dec.tag_mem {w : TagWidth} {tags : List Nat} {v r : Bytes} {t : Nat} (h : Dec.tag w tags v = .ok t r) :
    t ∈ tags ∧ t < 256 ^ w.len ∧ v = toBe w.len t ++ r := by
  obtain ⟨t', r', h1, h2⟩ := D.bind_eq_ok.mp h
  obtain ⟨bs, h3, rfl⟩ := D.map_eq_ok.mp h1
  obtain ⟨h4, rfl⟩ := D.take_eq_ok.mp h3
  split at h2
  · rename_i hm
    cases h2
    refine ⟨hm, ?_, ?_⟩
    · have := ofBe_lt bs
      rwa [h4] at this
    · rw [← h4, toBe_ofBe]
  · split at h2 <;> cases h2

theorem Dec.lenPref_ok {S : LenPref} {v r : Bytes} {n : Nat} (h : Dec.lenPref S v = .ok n r) :
    n ≤ S.maxLen ∧ v = toBe S.len n ++ r := by
  obtain ⟨t', r', h1, h2⟩ := D.bind_eq_ok.mp h
  obtain ⟨bs, h3, rfl⟩ := D.map_eq_ok.mp h1
  obtain ⟨h4, rfl⟩ := D.take_eq_ok.mp h3
  split at h2
  · rename_i hm
    cases h2
    exact ⟨hm, by rw [← h4, toBe_ofBe]⟩
  · cases h2

namespace Total

theorem check {ε : Type} (r : Except ε α) (f : ε → ParseError) : Total (Dec.check r f) := by
  unfold Dec.check
  split
  · exact pure _
  · exact throw _

theorem unit : Total Dec.unit := pure _
theorem bool : Total Dec.bool := bind byte fun _ => ite (pure _) (ite (pure _) (throw _))
theorem int (t : IntTy) : Total (Dec.int t) := map _ (take t.len_le)
theorem f64 : Total Dec.f64 := map _ (take (by decide))
theorem rangedInt (t : IntTy) (min max : Int) : Total (Dec.rangedInt t min max) :=
  bind (int t) fun _ => check _ _
theorem rangedFloat (min max : BitVec 64) : Total (Dec.rangedFloat min max) := bind f64 fun _ => check _ _
theorem byteArr {n : Nat} (hn : n ≤ isizeMax + 1) : Total (Dec.byteArr n) :=
  bind_of (take hn) fun v a r h => by
    rw [dif_pos (D.take_eq_ok.mp h).1]
    exact pure _ _
theorem bytes : Total Dec.bytes := rest
theorem string : Total Dec.string := map _ rest
theorem zarithN : Total Dec.zarithN := map _ (until_ _)
theorem zarithZ : Total Dec.zarithZ := map _ (until_ _)
theorem tag (w : TagWidth) (tags : List Nat) : Total (Dec.tag w tags) :=
  bind (map _ (take w.len_le)) fun _ => ite (pure _) (ite (throw _) (throw _))
theorem option {d : D α} (h : Total d) : Total (Dec.option d) :=
  bind (tag _ _) fun _ => ite (map _ h) (pure _)
theorem nullable {d : D α} (h : Total d) : Total (Dec.nullable d) := ifEmpty (pure _) (map _ h)
theorem lenPref (S : LenPref) : Total (Dec.lenPref S) := bind (map _ (take S.len_le)) fun _ => ite (pure _) (throw _)
theorem dynamic (S : LenPref) {d : D α} (h : Total d) : Total (Dec.dynamic S d) :=
  bind_of (lenPref S) fun _ _ _ hn => window (Nat.le_trans (Dec.lenPref_ok hn).1 S.maxLen_le) h _
theorem padded (cfg : Cfg) {n : Nat} (hn : n ≤ isizeMax + 1) {d : D α} (h : Total d) : Total (Dec.padded cfg n d) :=
  bind h fun _ => bind (take hn) fun _ => ite (throw _) (pure _)
theorem seq {d : D α} (h : Total d) (hp : Progress d) : Total (Dec.seq d) := many h hp
theorem fixSeq (n : Nat) {d : D α} (h : Total d) : Total (Dec.fixSeq n d) :=
  bind (upTo h n) fun _ => ite (pure _) (throw _)
theorem limSeq (n : Nat) {d : D α} (h : Total d) : Total (Dec.limSeq n d) := manyMax _ h n
theorem cstyle (w : TagWidth) (tags : List Nat) : Total (Dec.cstyle w tags) :=
  bind_of (tag w tags) fun v a r h => by
    rw [dif_pos (Dec.tag_mem h).1]
    exact pure _ _
theorem vnil (t : Nat) (h : t ∈ ([] : List Nat)) : Total (Dec.vnil t) := nomatch h
theorem vcons (tag : Nat) {tags : List Nat} {d : D α} {dv : Nat → D β} (h : Total d)
    (hv : ∀ t ∈ tags, Total (dv t)) (t : Nat) (ht : t ∈ tag :: tags) : Total (Dec.vcons tag d dv t) := by
  unfold Dec.vcons
  split
  · exact map _ h
  · rename_i hne
    refine map _ (hv t ?_)
    simpa [hne] using ht
theorem data (w : TagWidth) {tags : List Nat} {dv : Nat → D β} (hv : ∀ t ∈ tags, Total (dv t)) :
    Total (Dec.data w tags dv) :=
  bind_of (tag w tags) fun _ a r h => hv a (Dec.tag_mem h).1 r
theorem fnil : Total Dec.fnil := pure _
theorem fcons {d : D α} {df : D β} (h : Total d) (hf : Total df) : Total (Dec.fcons d df) :=
  bind h fun _ => bind hf fun _ => pure _

end Total

/-! ### progress -/

namespace Progress

theorem bool : Progress Dec.bool :=
  of_bind_left byte fun _ => .ite (.pure _) (.ite (.pure _) (.throw _))
theorem int (t : IntTy) : Progress (Dec.int t) := map _ (take t.len_pos)
theorem f64 : Progress Dec.f64 := map _ (take (by decide))
theorem rangedInt (t : IntTy) (min max : Int) : Progress (Dec.rangedInt t min max) :=
  of_bind_left (int t) fun _ => .check _ _
theorem rangedFloat (min max : BitVec 64) : Progress (Dec.rangedFloat min max) :=
  of_bind_left f64 fun _ => .check _ _
theorem byteArr {n : Nat} (hn : 0 < n) : Progress (Dec.byteArr n) :=
  of_bind_left (take hn) fun _ => .dite (fun _ => .pure _) fun _ => .panic
theorem zarithN : Progress Dec.zarithN := map _ (until_ _)
theorem zarithZ : Progress Dec.zarithZ := map _ (until_ _)
theorem tag (w : TagWidth) (tags : List Nat) : Progress (Dec.tag w tags) :=
  of_bind_left (map _ (take w.len_pos)) fun _ => .ite (.pure _) (.ite (.throw _) (.throw _))
theorem option {d : D α} (h : ReadsPrefix d) : Progress (Dec.option d) :=
  of_bind_left (tag _ _) fun _ => .ite (.map _ h) (.pure _)
theorem lenPref (S : LenPref) : Progress (Dec.lenPref S) :=
  of_bind_left (map _ (take S.len_pos)) fun _ => .ite (.pure _) (.throw _)
theorem dynamic (S : LenPref) (d : D α) : Progress (Dec.dynamic S d) :=
  of_bind_left (lenPref S) fun n => .window n d
theorem window (n : Nat) {d : D α} (h : Progress d) : Progress (D.window n d) := by
  intro v a r hd
  simp only [D.window] at hd
  split at hd
  · rename_i hn
    obtain ⟨a', left, h1, h2⟩ := DecRes.bind_eq_ok.mp hd
    have := h _ _ _ h1
    split at h2
    · rename_i hl
      cases h2
      simp only [List.length_take, List.length_drop] at this ⊢
      omega
    · cases h2
  · simp only [D.short] at hd
    split at hd <;> cases hd
theorem vpadded (cfg : Cfg) (n : Nat) {d : D α} (h : Progress d) : Progress (Dec.vpadded cfg n d) := by
  intro v a r hd
  simp only [Dec.vpadded] at hd
  split at hd
  · exact window _ h _ _ _ hd
  · split at hd <;> cases hd
theorem padded (cfg : Cfg) (n : Nat) {d : D α} (h : Progress d) : Progress (Dec.padded cfg n d) :=
  of_bind_left h fun _ => .bind (.take n) fun _ => .ite (.throw _) (.pure _)
theorem padded' (cfg : Cfg) {n : Nat} (hn : 0 < n) {d : D α} (h : ReadsPrefix d) : Progress (Dec.padded cfg n d) :=
  of_bind_right h fun _ => of_bind_left (take hn) fun _ => .ite (.throw _) (.pure _)
theorem fixSeq {n : Nat} (hn : 0 < n) {d : D α} (h : Progress d) (hp : ReadsPrefix d) : Progress (Dec.fixSeq n d) := by
  intro v l r hd
  obtain ⟨l', r', h1, h2⟩ := D.bind_eq_ok.mp hd
  split at h2
  · rename_i hl
    cases h2
    cases n with
    | zero => omega
    | succ n =>
      simp only [D.upTo, D.ifEmpty] at h1
      split at h1
      · cases h1
        simp at hl
      · exact of_bind_left h (fun _ => .bind (.upTo hp n) fun _ => .pure _) _ _ _ h1
  · cases h2
theorem hole : Progress Dec.hole := fun _ _ _ h => by cases h
theorem cstyle (w : TagWidth) (tags : List Nat) : Progress (Dec.cstyle w tags) :=
  of_bind_left (tag w tags) fun _ => .dite (fun _ => .pure _) fun _ => .panic
theorem data (w : TagWidth) (tags : List Nat) {dv : Nat → D β} (hv : ∀ t, ReadsPrefix (dv t)) :
    Progress (Dec.data w tags dv) := of_bind_left (tag w tags) hv
theorem fcons {d : D α} {df : D β} (h : Progress d) (hf : ReadsPrefix df) : Progress (Dec.fcons d df) :=
  of_bind_left h fun _ => .bind hf fun _ => .pure _
theorem fcons' {d : D α} {df : D β} (h : ReadsPrefix d) (hf : Progress df) : Progress (Dec.fcons d df) :=
  of_bind_right h fun _ => of_bind_left hf fun _ => .pure _

end Progress

/-! ### non-empty encodings -/

namespace NonEmpty

theorem of_toBe {k : Nat} (hk : 0 < k) (n : Nat) : toBe k n ≠ [] := by
  intro h
  have := toBe_length k n
  simp [h] at this
  omega

theorem cat_left {a b : Option Bytes} {e : Bytes} (h : Enc.cat a b = some e) (ha : ∀ x, a = some x → x ≠ []) :
    e ≠ [] := by
  obtain ⟨x, y, h1, h2, rfl⟩ := cat_eq_some.mp h
  have := ha x h1
  simp [this]

theorem cat_right {a b : Option Bytes} {e : Bytes} (h : Enc.cat a b = some e) (hb : ∀ x, b = some x → x ≠ []) :
    e ≠ [] := by
  obtain ⟨x, y, h1, h2, rfl⟩ := cat_eq_some.mp h
  have := hb y h2
  simp [this]

variable (V : α → Prop)

theorem bool (V) : NonEmpty Enc.bool V := by
  intro x b _ h
  cases h
  simp

theorem int (t : IntTy) (V) : NonEmpty (Enc.int t) V := by
  intro x b _ h
  cases h
  exact of_toBe t.len_pos _

theorem f64 (V) : NonEmpty Enc.f64 V := int .u64 V

theorem rangedInt (t : IntTy) (min max : Int) (V) : NonEmpty (Enc.rangedInt t min max) V := by
  intro x b _ h
  simp only [Enc.rangedInt] at h
  split at h
  · cases h
    exact of_toBe t.len_pos _
  · cases h

theorem byteArr {n : Nat} (hn : 0 < n) (V) : NonEmpty (Enc.byteArr n) V := by
  intro x b _ h
  cases h
  intro h
  have := x.2
  simp [h] at this
  omega

theorem zarithN (V) : NonEmpty Enc.zarithN V := by
  intro x b _ h
  cases h
  exact Enc.nat7_ne_nil x

theorem zarithZ (V) : NonEmpty Enc.zarithZ V := by
  intro x b _ h
  cases h
  unfold Enc.int7
  simp only
  split <;> simp

theorem option (e : Enc α) (V) : NonEmpty (Enc.option e) V := by
  intro x b _ h
  cases x with
  | none => cases h; simp
  | some x => exact cat_left h fun y hy => by cases hy; simp

theorem dynamic (S : LenPref) (len : α → Option Nat) (e : Enc α) : NonEmpty (Enc.dynamic S len e) V := by
  intro x b _ h
  simp only [Enc.dynamic] at h
  split at h
  · cases h
  · split at h
    · exact cat_left h fun y hy => by cases hy; exact of_toBe S.len_pos _
    · cases h

variable {V}

theorem padded (n : Nat) {e : Enc α} (h : NonEmpty e V) : NonEmpty (Enc.padded n e) V :=
  fun x _ hv hb => cat_left hb fun y hy => h x y hv hy

theorem padded' {n : Nat} (hn : 0 < n) (e : Enc α) : NonEmpty (Enc.padded n e) V :=
  fun _ _ _ hb => cat_right hb fun y hy => by cases hy; simp; omega

theorem fixSeq {n : Nat} (hn : 0 < n) {e : Enc α} (h : NonEmpty e V) :
    NonEmpty (Enc.list e) (fun xs => xs.length = n ∧ ∀ x ∈ xs, V x) := by
  intro xs b hv hb hn'
  have := (h.list hv.2 hb).mpr hn'
  subst this
  simp at hv
  omega

theorem cstyle (w : TagWidth) (tags : List Nat) (V) : NonEmpty (Enc.cstyle w tags) V := by
  intro x b _ h
  cases h
  exact of_toBe w.len_pos _

theorem vnil (w : TagWidth) (V) : NonEmpty (Enc.vnil w) V := fun x => nomatch x

theorem vcons (w : TagWidth) (tag : Nat) (e : Enc α) {ev : TagWidth → Enc β} {V' : β → Prop}
    (h : NonEmpty (ev w) V') : NonEmpty (Enc.vcons tag e ev w) (Sum.elim V V') := by
  intro x b hv hb
  cases x with
  | inl x => exact cat_left hb fun y hy => by cases hy; exact of_toBe w.len_pos _
  | inr y => exact h y b hv hb

theorem fcons {e : Enc α} {ef : Enc β} {V' : β → Prop} (h : NonEmpty e V) :
    NonEmpty (Enc.fcons e ef) (fun x => V x.1 ∧ V' x.2) :=
  fun x _ hv hb => cat_left hb fun y hy => h x.1 y hv.1 hy

theorem fcons' {e : Enc α} {ef : Enc β} {V' : β → Prop} (h : NonEmpty ef V') :
    NonEmpty (Enc.fcons e ef) (fun x => V x.1 ∧ V' x.2) :=
  fun x _ hv hb => cat_right hb fun y hy => h x.2 y hv.2 hy

end NonEmpty

end Verif
