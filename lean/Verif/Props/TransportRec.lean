import Verif.Props.Transport
import Verif.Props.Recursive
/-
C58 for recursive types.
-/
namespace Verif.Props

open Codec

variable (cfg : Cfg) (d : Decls) {i : Nat}

/-- A recursive type's value is decoded where one of its unfoldings is decoded. -/
theorem rec_tryDecodeFrom {ih : Bool} {k : Backend} {inp : Input} (a : d.Val i) :
    (d.codec cfg i).tryDecodeFrom cfg ih k inp = .ok a () ↔
      ∃ n x, a = d.val n x ∧ ((d.unfold n i).codec cfg).tryDecodeFrom cfg ih k inp = .ok x () := by
  have hfin : ∀ {α β : Type} (f : α → β) (x : α) (y : α) (st : k.State), k.finish cfg x st = .ok y () →
      x = y ∧ k.finish cfg (f x) st = .ok (f x) () := by
    intro α β f x y st h
    unfold Backend.finish at h ⊢
    split at h
    · split at h
      · split at h
        · cases h
        · rename_i hc _ _ _ _ hn
          rw [if_pos hc]
          exact ⟨(Out.ok.inj h).1, if_neg hn⟩
      all_goals cases h
    · rename_i hc
      rw [if_neg hc]
      exact ⟨(Out.ok.inj h).1, rfl⟩
  unfold Codec.tryDecodeFrom
  cases inp.toBuffer ih with
  | none => exact ⟨nofun, fun ⟨_, _, _, h⟩ => nomatch h⟩
  | some r => cases r with
    | error e => exact ⟨nofun, fun ⟨_, _, _, h⟩ => nomatch h⟩
    | ok buf =>
      dsimp only
      constructor
      · intro h
        unfold Codec.tryDecode at h
        cases hp : (d.codec cfg i).parse (k.ops cfg.prof) (k.init buf) with
        | ok a' st' =>
          rw [hp] at h
          obtain ⟨n, x, rfl, hx⟩ := d.parse_inv hp
          obtain ⟨rfl, -⟩ := hfin id _ _ _ h
          refine ⟨n, x, rfl, ?_⟩
          unfold Codec.tryDecode
          rw [hx]
          have := (hfin (fun _ => x) _ _ _ h).2
          exact this
        | _ => rw [hp] at h; cases h
      · rintro ⟨n, x, rfl, h⟩
        unfold Codec.tryDecode at h ⊢
        cases hp : ((d.unfold n i).codec cfg).parse (k.ops cfg.prof) (k.init buf) with
        | ok x' st' =>
          rw [hp] at h
          obtain ⟨rfl, h2⟩ := hfin (d.val n) _ _ _ h
          rw [d.parse_ok hp]
          exact h2
        | _ => rw [hp] at h; cases h

/-- C58 for recursive types, out. -/
theorem C58_recursive_out (a : d.Val i) (b : Bytes) (h : (d.codec cfg i).toBytes a = some b) :
    ∃ t, denotes t = some b ∧ LowerHex t ∧ t.length = 2 * b.length ∧
      (∃ e, (d.codec cfg i).encode strictTarget a = some e ∧ StrictBuilder.ops.intoHex e = t) ∧
      (∃ e, (d.codec cfg i).encode memoTarget a = some e ∧ MemoBuilder.ops.intoHex e = t) ∧
      ∃ e, (d.codec cfg i).encode hexTarget a = some e ∧ e.toHex = t ∧ e.eqHex t = some true := by
  obtain ⟨n, x, rfl⟩ := d.exists_val a
  exact C58_out cfg (d.unfold n i) x b h

/-- C58 for recursive types, in. -/
theorem C58_recursive_in (hst : d.Stable) (ht : ∀ j, (d.body j).tagsOk) {tl : Tail} (htl : (d.body i).tail = some tl)
    (hl : tl.Allows []) (a : d.Val i) (he : (cfg.encLenOverride = false ∧ d.Valid a) ∨ d.PrefixOk a) (b : Bytes)
    (hb : (d.codec cfg i).toBytes a = some b) (hlen : b.length ≤ isizeMax) (t : List Char) (hd : denotes t = some b) :
    (∀ k, k ≠ .slice → (d.codec cfg i).tryDecodeFrom cfg true k (.text t) = .ok a ()) ∧
    (d.codec cfg i).decode cfg true (.text t) = .ok a () ∧ (d.codec cfg i).decodeMemo cfg true (.text t) = .ok a () ∧
    ∃ h, HexString.fromHex t = some (.ok h) ∧ ∀ ih, (d.codec cfg i).decode cfg ih (.hex h) = .ok a () ∧
      (d.codec cfg i).decodeMemo cfg ih (.hex h) = .ok a () := by
  obtain ⟨n, x, rfl, hv, he'⟩ : ∃ n x, a = d.val n x ∧ (d.unfold n i).Valid x ∧ (cfg.encLenOverride = false ∨ (d.unfold n i).PrefixOk x) := by
    rcases he with ⟨h, n, x, e, hv⟩ | ⟨n, x, e, hv, he⟩
    · exact ⟨n, x, e, hv, .inl h⟩
    · exact ⟨n, x, e, hv, .inr he⟩
  obtain ⟨h1, h2, h3, h, h4, h5⟩ := C58_in cfg (d.unfold n i) (d.tagsOk ht n i) (d.tail hst htl x) hl x hv he' b hb hlen t hd
  have up : ∀ ih inp, ((d.unfold n i).codec cfg).decode cfg ih inp = .ok x () → (d.codec cfg i).decode cfg ih inp = .ok (d.val n x) () :=
    fun ih inp g => (C43_decode (d.codec cfg i) cfg ih inp _).1.mpr ((rec_tryDecodeFrom cfg d _).mpr ⟨n, x, rfl,
      (C43_decode ((d.unfold n i).codec cfg) cfg ih inp x).1.mp g⟩)
  have up' : ∀ ih inp, ((d.unfold n i).codec cfg).decodeMemo cfg ih inp = .ok x () → (d.codec cfg i).decodeMemo cfg ih inp = .ok (d.val n x) () :=
    fun ih inp g => (C43_decode (d.codec cfg i) cfg ih inp _).2.1.mpr ((rec_tryDecodeFrom cfg d _).mpr ⟨n, x, rfl,
      (C43_decode ((d.unfold n i).codec cfg) cfg ih inp x).2.1.mp g⟩)
  exact ⟨fun k hk => (rec_tryDecodeFrom cfg d _).mpr ⟨n, x, rfl, h1 k hk⟩, up _ _ h2, up' _ _ h3, h, h4,
    fun ih => ⟨up _ _ (h5 ih).1, up' _ _ (h5 ih).2⟩⟩

/-- C58 for recursive types without redundant encodings: the two directions are inverse to each other. -/
theorem C58_recursive_inverse (hcfg : cfg.encLenOverride = false) (hfull : cfg.completeParse = true) (hst : d.Stable)
    (hz : ∀ j, (d.body j).sized = true) (hc : ∀ j, (d.body j).canonical cfg = true) (ht : ∀ j, (d.body j).tagsOk) {tl : Tail}
    (htl : (d.body i).tail = some tl) (hl : tl.Allows []) (t : List Char) (hlow : LowerHex t) (hlen : t.length ≤ isizeMax)
    (a : d.Val i) : (d.codec cfg i).decode cfg true (.text t) = .ok a () ↔
      d.Valid a ∧ ∃ e, (d.codec cfg i).encode strictTarget a = some e ∧ StrictBuilder.ops.intoHex e = t := by
  have key : ∀ n (x : (d.unfold n i).Val), ((d.unfold n i).codec cfg).decode cfg true (.text t) = .ok x () ↔
      (d.unfold n i).Valid x ∧ ∃ e, (d.codec cfg i).encode strictTarget (d.val n x) = some e ∧ StrictBuilder.ops.intoHex e = t :=
    fun n x => C58_inverse cfg hcfg hfull (d.unfold n i) (d.sized hz n i) (d.canonical cfg hc n i) (d.tagsOk ht n i)
      (d.tail hst htl x) hl t hlow hlen x
  rw [(C43_decode (d.codec cfg i) cfg true (.text t) a).1, rec_tryDecodeFrom]
  constructor
  · rintro ⟨n, x, rfl, h⟩
    have := (key n x).mp ((C43_decode ((d.unfold n i).codec cfg) cfg true (.text t) x).1.mpr h)
    exact ⟨⟨n, x, rfl, this.1⟩, this.2⟩
  · rintro ⟨⟨n, x, rfl, hv⟩, h⟩
    exact ⟨n, x, rfl, (C43_decode ((d.unfold n i).codec cfg) cfg true (.text t) x).1.mp ((key n x).mpr ⟨hv, h⟩)⟩

/-- C58 for recursive types: `check` passes exactly for the pairs of a value and the text it is encoded as. -/
theorem C58_recursive_check (hcfg : cfg.encLenOverride = false) (hfull : cfg.completeParse = true) (hst : d.Stable)
    (hz : ∀ j, (d.body j).sized = true) (hc : ∀ j, (d.body j).canonical cfg = true) (ht : ∀ j, (d.body j).tagsOk) {tl : Tail}
    (htl : (d.body i).tail = some tl) (hl : tl.Allows []) (eq : d.Val i → d.Val i → Bool) (heq : ∀ a b, eq a b = true ↔ a = b)
    (t : List Char) (hlen : t.length ≤ isizeMax) (a : d.Val i) : (d.codec cfg i).check cfg eq t a = .ok () () ↔
      d.Valid a ∧ ∃ e, (d.codec cfg i).encode strictTarget a = some e ∧ StrictBuilder.ops.intoHex e = t :=
  check_iff cfg (d.codec cfg i) d.Valid eq heq t a fun hlow => C58_recursive_inverse cfg d hcfg hfull hst hz hc ht htl hl t hlow hlen

/-- The hypotheses are met by `U8Seq` of src/autobox.rs:23-36. -/
example (cfg : Cfg) (hcfg : cfg.encLenOverride = false) (hfull : cfg.completeParse = true) (a : u8Seq.Val 0) :
    (u8Seq.codec cfg 0).decode cfg true (.text "05ff0700".toList) = .ok a () ↔
      u8Seq.Valid a ∧ ∃ e, (u8Seq.codec cfg 0).encode strictTarget a = some e ∧ StrictBuilder.ops.intoHex e = "05ff0700".toList :=
  C58_recursive_inverse cfg u8Seq hcfg hfull (fun _ => ⟨rfl, rfl⟩) (fun _ => rfl) (fun _ => rfl) (fun _ => ⟨trivial, trivial, trivial⟩)
    rfl trivial _ (by intro c hc; revert c; decide) (by decide) a

end Verif.Props
