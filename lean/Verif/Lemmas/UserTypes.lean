import Verif.Spec.UserTypes
import Verif.Lemmas.Schema
/-
The library's type constructors keep the promises made for the types they are applied to.
-/
namespace Verif

variable {α β : Type} {cfg : Cfg} {V : α → Prop} {V' : β → Prop} {k k' : Tail} {ne ne' : Bool} {w w' : Option Nat} {c : Codec α}

namespace Contract

theorem of {e : Enc α} {d : D α} (hw : c.Writes e) (hp : c.Parses True d) (hr : RoundTrips e d V k)
    (hn : ne = true → NonEmpty e V) (hl : ∀ n, w = some n → ∀ x b, V x → e x = some b → b.length = n)
    (he : cfg.encLenOverride = true → ∀ x b, V x → e x = some b → c.unknown x = b.length ∧ ∀ n, c.known = some n → n = b.length) :
    Contract cfg c V k ne w := by
  obtain rfl : c.toBytes = e := funext fun x => Codec.Writes.toBytes hw x
  exact ⟨hw, ⟨d, hp, hr⟩, hn, hl, he⟩

theorem estimate (h : Contract cfg c V k ne w) (ho : cfg.encLenOverride = true) (x : α) (b : Bytes) (hv : V x)
    (hb : c.toBytes x = some b) : c.estimate x = b.length := by
  obtain ⟨h1, h2⟩ := h.estimates ho x b hv hb
  unfold Codec.estimate
  cases hk : c.known with
  | none => exact h1
  | some n => exact h2 n hk

theorem mono (h : Contract cfg c V k ne w) {V₁ : α → Prop} {k₁ : Tail} {ne₁ : Bool} (hv : ∀ x, V₁ x → V x)
    (hk : ∀ t, k₁.Allows t → k.Allows t) (hn : ne₁ = true → ne = true) : Contract cfg c V₁ k₁ ne₁ w := by
  obtain ⟨d, h1, h2⟩ := h.parses
  exact ⟨h.writes, ⟨d, h1, h2.mono hv hk⟩, fun h' x b hx => h.nonEmpty (hn h') x b (hv x hx),
    fun n hn x b hx => h.width n hn x b (hv x hx), fun ho x b hx => h.estimates ho x b (hv x hx)⟩

theorem schema (s : Schema) (ht : s.tagsOk) (hk : s.tail = some k) :
    Contract cfg (s.codec cfg) (fun x => s.Valid x ∧ (cfg.encLenOverride = true → s.EstOk x)) k s.nonempty s.width := by
  have e : ∀ x, s.Valid x ∧ (cfg.encLenOverride = true → s.EstOk x) → s.out cfg x = s.wire x := by
    intro x hx
    cases ho : cfg.encLenOverride with
    | false => rw [s.out_eq ho]
    | true => exact s.out_eq_of_estOk cfg x hx.1 (hx.2 ho)
  refine of (s.writes_out cfg) (Codec.Parses.mono (fun _ => trivial) (s.parses cfg)) (fun x b t hv hb hl => ?_)
    (fun hn x b hv hb => ?_) (fun n hw x b hv hb => ?_) fun ho x b hv hb => ?_ <;> rw [e x hv] at hb
  · exact s.roundTrips cfg ht hk x b t hv.1 hb hl
  · exact s.nonEmpty hn x b hv.1 hb
  · exact s.width_eq hw x b hv.1 hb
  · refine ⟨s.unknown_eq cfg x b hv.1 (hv.2 ho) hb, fun n hn => ?_⟩
    rw [s.known_eq cfg] at hn
    exact (s.width_eq hn x b hv.1 hb).symm

theorem option (h : Contract cfg c V k ne w) : Contract cfg (.option c) (fun o => ∀ x, o = some x → V x) k true none := by
  obtain ⟨d, hp, hr⟩ := h.parses
  refine of (Codec.option_writes h.writes) (Codec.option_parses hp) hr.option (fun _ x b hv hb => ?_) nofun fun ho x b hv hb => ?_
  · rintro rfl
    rcases Enc.option_length hb with ⟨_, h1⟩ | ⟨_, _, _, _, h1⟩ <;> rw [List.length_nil] at h1 <;> omega
  · rcases Enc.option_length hb with ⟨rfl, h1⟩ | ⟨y, b', rfl, h1, h2⟩
    · refine ⟨h1.symm, fun n hn => ?_⟩
      simp only [Codec.option] at hn
      split at hn
      · cases hn; omega
      · cases hn
    · have h3 := h.estimate ho y b' (hv y rfl) h1
      refine ⟨by show 1 + c.estimate y = b.length; omega, fun n hn => ?_⟩
      simp only [Codec.option] at hn
      split at hn
      · rename_i hk
        cases hn
        rw [Codec.estimate, hk] at h3
        have h3 : 0 = b'.length := h3
        omega
      · cases hn

theorem nullable (h : Contract cfg c V k true w) (hk : k.Allows []) :
    Contract cfg (.nullable c) (fun o => ∀ x, o = some x → V x) (.exact 0) false none := by
  obtain ⟨d, hp, hr⟩ := h.parses
  refine of (Codec.nullable_writes h.writes) (Codec.nullable_parses hp) (hr.nullable hk (h.nonEmpty rfl)) nofun nofun
    fun ho x b hv hb => ?_
  cases x with
  | none =>
    cases hb
    refine ⟨rfl, fun n hn => ?_⟩
    simp only [Codec.nullable] at hn
    split at hn <;> cases hn
    rfl
  | some y =>
    have h3 := h.estimate ho y b (hv y rfl) hb
    refine ⟨h3, fun n hn => ?_⟩
    simp only [Codec.nullable] at hn
    split at hn
    · rename_i hk
      cases hn
      rw [Codec.estimate, hk] at h3
      exact h3
    · cases hn

theorem lenOf (h : Contract cfg c V k ne w) (x : α) (b : Bytes) (l : Nat) (hv : V x) (hb : c.toBytes x = some b)
    (hl : Enc.lenOf cfg c.estimate c.toBytes x = some l) : l = b.length := by
  unfold Enc.lenOf at hl
  split at hl
  · rename_i ho
    cases hl
    exact h.estimate ho x b hv hb
  · rw [hb] at hl
    cases hl
    rfl

theorem dynamic (S : LenPref) (h : Contract cfg c V k ne w) (hk : k.Allows []) :
    Contract cfg (.dynamic cfg S c) V .any true (w.map (S.len + ·)) := by
  obtain ⟨d, hp, hr⟩ := h.parses
  have hs : ∀ {x b}, Enc.dynamic S (Enc.lenOf cfg c.estimate c.toBytes) c.toBytes x = some b →
      ∃ b', c.toBytes x = some b' ∧ b.length = S.len + b'.length := by
    intro x b hb
    obtain ⟨l, b', _, _, h1, rfl⟩ := Enc.dynamic_eq_some.mp hb
    exact ⟨b', h1, by rw [List.length_append, toBe_length]⟩
  refine of (Codec.dynamic_writes cfg S h.writes) (Codec.dynamic_parses cfg S hp) (hr.dynamic S hk h.lenOf)
    (fun _ x b hv hb => ?_) (fun n hn x b hv hb => ?_) fun ho x b hv hb => ?_
  · rintro rfl
    obtain ⟨b', _, h2⟩ := hs hb
    have := S.len_pos
    rw [List.length_nil] at h2
    omega
  · obtain ⟨b', h1, h2⟩ := hs hb
    obtain ⟨m, rfl, rfl⟩ := Option.map_eq_some_iff.mp hn
    rw [h2, h.width m rfl x b' hv h1]
  · obtain ⟨b', h1, h2⟩ := hs hb
    obtain ⟨h3, h4⟩ := h.estimates ho x b' hv h1
    refine ⟨by show S.len + c.unknown x = _; omega, fun n hn => ?_⟩
    simp only [Codec.dynamic] at hn
    split at hn
    · rename_i m hk
      cases hn
      rw [h2, ← h4 m hk]
    · cases hn

theorem vpadded (n : Nat) (h : Contract cfg c V k ne w) (hk : k.Allows []) :
    Contract cfg (.vpadded cfg n c) V (.exact n) ne w := by
  obtain ⟨d, hp, hr⟩ := h.parses
  exact of (Codec.vpadded_writes cfg n h.writes) (Codec.vpadded_parses cfg n hp) (hr.vpadded cfg n hk) h.nonEmpty h.width h.estimates

theorem padded (n : Nat) (h : Contract cfg c V k ne w) (hk : ∀ t, k'.Allows t → k.Allows (List.replicate n 0 ++ t)) :
    Contract cfg (.padded cfg n c) V k' (ne || decide (0 < n)) (w.map (· + n)) := by
  obtain ⟨d, hp, hr⟩ := h.parses
  have hs : ∀ {x b}, Enc.padded n c.toBytes x = some b → ∃ b', c.toBytes x = some b' ∧ b = b' ++ List.replicate n 0 := by
    intro x b hb
    obtain ⟨b1, b2, h1, h2, rfl⟩ := cat_eq_some.mp hb
    cases h2
    exact ⟨b1, h1, rfl⟩
  refine of (Codec.padded_writes cfg n h.writes) (Codec.padded_parses cfg n hp) (hr.padded cfg n hk)
    (fun hn x b hv hb => ?_) (fun m hm x b hv hb => ?_) fun ho x b hv hb => ?_ <;> obtain ⟨b', h1, rfl⟩ := hs hb
  · intro e
    obtain ⟨e1, e2⟩ := List.append_eq_nil_iff.mp e
    rw [Bool.or_eq_true, decide_eq_true_eq] at hn
    rcases hn with hn | hn
    · exact h.nonEmpty hn x b' hv h1 e1
    · rw [List.replicate_eq_nil_iff] at e2; omega
  · obtain ⟨m, rfl, rfl⟩ := Option.map_eq_some_iff.mp hm
    rw [List.length_append, List.length_replicate, h.width m rfl x b' hv h1]
  · obtain ⟨h3, h4⟩ := h.estimates ho x b' hv h1
    rw [List.length_append, List.length_replicate]
    refine ⟨by show c.unknown x + n = _; omega, fun m hm => ?_⟩
    simp only [Codec.padded] at hm
    split at hm
    · rename_i m hk
      cases hm
      rw [h4 m hk]
    · cases hm

theorem seq (h : Contract cfg c V .any true w) : Contract cfg (.seq c) (fun xs => ∀ x ∈ xs, V x) (.exact 0) false none := by
  obtain ⟨d, hp, hr⟩ := h.parses
  refine of (Codec.seq_writes h.writes) (Codec.seq_parses hp) (hr.seq (h.nonEmpty rfl)) nofun nofun fun ho x b hv hb => ?_
  exact ⟨Enc.list_length_sum (h.estimate ho) hv hb, nofun⟩

theorem limSeq (n : Nat) (h : Contract cfg c V .any true w) :
    Contract cfg (.limSeq n c) (fun xs => xs.length ≤ n ∧ ∀ x ∈ xs, V x) (.exact 0) false none := by
  obtain ⟨d, hp, hr⟩ := h.parses
  refine of (Codec.limSeq_writes n h.writes) (Codec.limSeq_parses n hp) (hr.limSeq n (h.nonEmpty rfl)) nofun nofun fun ho x b hv hb => ?_
  exact ⟨Enc.list_length_sum (h.estimate ho) hv.2 hb, nofun⟩

theorem fixSeq (n : Nat) (h : Contract cfg c V .any true w) :
    Contract cfg (.fixSeq n c) (fun xs => xs.length = n ∧ ∀ x ∈ xs, V x) .any (decide (0 < n)) (w.map (n * ·)) := by
  obtain ⟨d, hp, hr⟩ := h.parses
  refine of (Codec.fixSeq_writes n h.writes) (Codec.fixSeq_parses n hp) (hr.fixSeq n (h.nonEmpty rfl))
    (fun hn x b hv hb => ?_) (fun m hm x b hv hb => ?_) fun ho x b hv hb => ?_
  · rw [decide_eq_true_eq] at hn
    intro e
    obtain rfl := ((h.nonEmpty rfl).list hv.2 hb).mpr e
    have := hv.1
    rw [List.length_nil] at this
    omega
  · obtain ⟨m, rfl, rfl⟩ := Option.map_eq_some_iff.mp hm
    rw [Enc.list_length_const (h.width m rfl) hv.2 hb, hv.1]
  · refine ⟨Enc.list_length_sum (fun x b hv hb => (h.estimates ho x b hv hb).1) hv.2 hb, fun m hm => ?_⟩
    simp only [Codec.fixSeq] at hm
    split at hm
    · rename_i m hk
      cases hm
      rw [Enc.list_length_const (m := m) (fun x b hv hb => ((h.estimates ho x b hv hb).2 m hk).symm) hv.2 hb, hv.1]
    · cases hm

theorem autobox (h : Contract cfg c V k ne w) : Contract cfg (.autobox c) V k ne w := h

end Contract

namespace VContract

variable {tw : TagWidth} {v : VCodec β}

theorem nil : VContract cfg tw .nil (fun _ => True) k :=
  ⟨⟨_, _, Codec.vnil_writes, Codec.vnil_parses, VRoundTrips.nil tw k, fun _ x => nomatch x⟩⟩

theorem cons (tag : Nat) (h : Contract cfg c V k ne w) (hv : VContract cfg tw v V' k) (ht : tag ∉ v.tags) :
    VContract cfg tw (.cons tag c v) (Sum.elim V V') k := by
  obtain ⟨d, hp, hr⟩ := h.parses
  obtain ⟨e, dv, h1, h2, h3, h4⟩ := hv.agree
  refine ⟨⟨_, _, Codec.vcons_writes tag h.writes h1, Codec.vcons_parses tag hp h2, VRoundTrips.cons tag hr h3 ht, fun ho x b hx hb => ?_⟩⟩
  cases x with
  | inl x =>
    obtain ⟨b1, b2, e1, e2, rfl⟩ := cat_eq_some.mp hb
    cases e1
    rw [List.length_append, toBe_length, ← h.estimate ho x b2 hx e2]
    rfl
  | inr y => exact h4 ho y b hx hb

end VContract

theorem Contract.data (tw : TagWidth) {v : VCodec β} (h : VContract cfg tw v V' k) (ht : ∀ t ∈ v.tags, t < 256 ^ tw.len) :
    Contract cfg (.data tw v) V' k true none := by
  obtain ⟨e, d, h1, h2, h3, h4⟩ := h.agree
  refine of (Codec.data_writes tw h1) (Codec.data_parses tw h2) (RoundTrips.data tw h3 ht) (fun _ x b hv hb => ?_) nofun
    fun ho x b hv hb => ⟨h4 ho x b hv hb, nofun⟩
  obtain ⟨t, ht'⟩ : ∃ t, k.Allows t := by
    cases k with
    | any => exact ⟨[], trivial⟩
    | exact n => exact ⟨List.replicate n 0, List.length_replicate⟩
  obtain ⟨tag, p, _, rfl, _⟩ := h3 x b t hv hb ht'
  intro e
  have := congrArg List.length (List.append_eq_nil_iff.mp e).1
  rw [toBe_length, List.length_nil] at this
  have := tw.len_pos
  omega

namespace FContract

variable {f : FCodec β}

theorem nil : FContract cfg .nil (fun _ => True) .any false (some 0) := by
  refine ⟨⟨_, _, Codec.fnil_writes, Codec.fnil_parses, RoundTrips.fnil, nofun, fun n hn x b _ hb => ?_, fun ho x b _ hb => ?_⟩⟩
  · cases hn; cases hb; rfl
  · cases hb
    exact ⟨rfl, fun n hn => by cases hn; rfl⟩

theorem cons (h : Contract cfg c V k ne w) (hf : FContract cfg f V' k' ne' w') {k'' : Tail}
    (hk : ∀ t, k''.Allows t → k'.Allows t ∧ (k = .any ∨ ∃ m, w' = some m ∧ ∀ b : Bytes, b.length = m → k.Allows (b ++ t))) :
    FContract cfg (.cons c f) (fun x => V x.1 ∧ V' x.2) k'' (ne || ne')
      (match w, w' with
        | some m, some n => some (m + n)
        | _, _ => none) := by
  obtain ⟨d, hp, hr⟩ := h.parses
  obtain ⟨e, df, h1, h2, h3, h4, h5, h6⟩ := hf.agree
  refine ⟨⟨_, _, Codec.fcons_writes h.writes h1, Codec.fcons_parses hp h2, hr.fcons h3 (fun t ht => ⟨(hk t ht).1, fun y b hy hb => ?_⟩),
    fun hn x b hv hb => ?_, fun n hn x b hv hb => ?_, fun ho x b hv hb => ?_⟩⟩
  · rcases (hk t ht).2 with rfl | ⟨m, hm, hl⟩
    · trivial
    · exact hl b (h5 m hm y b hy hb)
  all_goals obtain ⟨b1, b2, e1, e2, rfl⟩ := cat_eq_some.mp hb
  · intro e
    obtain ⟨n1, n2⟩ := List.append_eq_nil_iff.mp e
    rw [Bool.or_eq_true] at hn
    rcases hn with hn | hn
    · exact h.nonEmpty hn _ _ hv.1 e1 n1
    · exact h4 hn _ _ hv.2 e2 n2
  · cases w with
    | none => cases hn
    | some m =>
      cases w' with
      | none => cases hn
      | some m' =>
        cases hn
        rw [List.length_append, h.width m rfl _ _ hv.1 e1, h5 m' rfl _ _ hv.2 e2]
  · obtain ⟨g1, g2⟩ := h.estimates ho _ _ hv.1 e1
    obtain ⟨g3, g4⟩ := h6 ho _ _ hv.2 e2
    rw [List.length_append]
    refine ⟨by show c.unknown x.1 + f.unknown x.2 = _; omega, fun n hn => ?_⟩
    simp only [FCodec.cons] at hn
    split at hn
    · rename_i m n hm hn'
      cases hn
      rw [g2 m hm, g4 n hn']
    · cases hn

end FContract

theorem Contract.record {f : FCodec β} (h : FContract cfg f V' k ne w) : Contract cfg (.record f) V' k ne w := by
  obtain ⟨e, d, h1, h2, h3, h4, h5, h6⟩ := h.agree
  exact of (Codec.record_writes h1) (Codec.record_parses h2) h3 h4 h5 h6

end Verif
