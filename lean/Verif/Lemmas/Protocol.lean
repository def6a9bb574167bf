import Verif.Spec.Protocol
import Verif.Props.Cut
import Verif.Props.UserTypes
/-
Lemmas about runs of several messages.
-/
namespace Verif.Protocol

variable {cfg : Cfg}

theorem parses : ∀ p : Protocol, (p.codec cfg).Parses p.Windowed (p.dec cfg)
  | done => fun _ => Refines.pure ()
  | msg s k => fun L => Refines.bind ((s.parses cfg L).mono (And.imp .inl id)) fun x =>
      Refines.bind (((k x).parses L).mono (And.imp (fun h => .inr ⟨x, h⟩) id)) fun _ => Refines.pure _

theorem writes : ∀ p : Protocol, (p.codec cfg).Writes (p.bytes cfg)
  | done => fun _ _ => Appends.zero
  | msg s k => fun L ⟨x, r⟩ => (Codec.Writes.appending (s.writes_out cfg) L x).add ((k x).writes L r)

theorem bytes_cons {s : Schema} {k : s.Val → Protocol} {x : s.Val} {r : (k x).Run} {b : Bytes} :
    (msg s k).bytes cfg ⟨x, r⟩ = some b ↔
      ∃ b1 b2, (s.codec cfg).toBytes x = some b1 ∧ (k x).bytes cfg r = some b2 ∧ b = b1 ++ b2 := cat_eq_some

theorem of_done {p : Protocol} (h : p = done) {r : p.Run} {b : Bytes} (hb : p.bytes cfg r = some b) : b = [] ∧ p.Ok .any := by
  subst h
  cases hb
  exact ⟨rfl, trivial⟩

theorem roundTrips {tl : Tail} : ∀ p : Protocol, p.Ok tl → RoundTrips (p.bytes cfg) (p.dec cfg) (p.Valid cfg) tl
  | done, _ => fun _ _ _ _ hb _ => by cases hb; rfl
  | msg s k, ho => fun ⟨x, r⟩ b t hv hb ht => by
    obtain ⟨b1, b2, e1, e2, rfl⟩ := bytes_cons.mp hb
    obtain ⟨hv1, he, hv2⟩ := hv
    rw [Props.toBytes_wire (he.imp id fun h => ⟨hv1, h⟩)] at e1
    rw [List.append_assoc]
    show DecRes.bind (s.dec cfg _) _ = _
    rcases ho.2 with ⟨h1, h2⟩ | ⟨h1, h2⟩
    · rw [s.roundTrips cfg ho.1 h1 x b1 (b2 ++ t) hv1 e1 trivial]
      show DecRes.bind ((k x).dec cfg _) _ = _
      rw [(k x).roundTrips (h2 x hv1) r b2 t hv2 e2 ht]
      rfl
    · obtain ⟨rfl, hok⟩ := of_done (h2 x) e2
      rw [s.roundTrips cfg ho.1 h1 x b1 ([] ++ t) hv1 e1 ht]
      show DecRes.bind ((k x).dec cfg _) _ = _
      rw [(k x).roundTrips hok r [] t hv2 e2 trivial]
      rfl

theorem Ok.weaken {tl : Tail} : ∀ p : Protocol, p.Ok .any → p.Ok tl
  | done, _ => trivial
  | msg _ k, ⟨h, h'⟩ => by
    refine ⟨h, .inl ?_⟩
    rcases h' with ⟨h1, h2⟩ | ⟨h1, h2⟩
    · exact ⟨h1, fun x hx => (h2 x hx).weaken⟩
    · exact ⟨h1, fun x _ => by rw [h2 x]; trivial⟩

theorem Ok.msg {s : Schema} {k : s.Val → Protocol} (h : (msg s k).Ok .any) :
    s.tagsOk ∧ s.tail = some .any ∧ ∀ x, s.Valid x → (k x).Ok .any := by
  refine ⟨h.1, ?_⟩
  rcases h.2 with h | ⟨h1, h2⟩
  · exact h
  · exact ⟨h1, fun x _ => by rw [h2 x]; trivial⟩

/-- What has arrived of a run is not taken for a run. -/
theorem cuts : ∀ p : Protocol, p.Ok .any → ∀ r b v t, p.Valid cfg r → p.bytes cfg r = some b → b.length ≤ isizeMax → b = v ++ t →
    t ≠ [] → ∃ e, p.dec cfg v = .err e ∧ e.WantsMore t.length
  | done, _ => fun _ b v t _ hb _ e hn => by
    cases hb
    exact absurd (List.append_eq_nil_iff.mp e.symm).2 hn
  | msg s k, ho => fun ⟨x, r⟩ b v t hv hb hl e hn => by
    obtain ⟨b1, b2, e1, e2, rfl⟩ := bytes_cons.mp hb
    obtain ⟨hv1, he, hv2⟩ := hv
    obtain ⟨h1, h2, h3⟩ := ho.msg
    rw [List.length_append] at hl
    show ∃ e, DecRes.bind (s.dec cfg v) _ = .err e ∧ _
    rcases List.append_eq_append_iff.mp e with ⟨v2, rfl, e'⟩ | ⟨t1, rfl, rfl⟩
    · rw [Props.toBytes_wire (he.imp id fun h => ⟨hv1, h⟩)] at e1
      rw [s.roundTrips cfg h1 h2 x b1 v2 hv1 e1 trivial]
      obtain ⟨e, hd, hw⟩ := (k x).cuts (h3 x hv1) r b2 v2 t hv2 e2 (by omega) e' hn
      refine ⟨e, ?_, hw⟩
      show DecRes.bind ((k x).dec cfg _) _ = _
      rw [hd]
      rfl
    · by_cases ht : t1 = []
      · subst ht
        rw [Props.toBytes_wire (he.imp id fun h => ⟨hv1, h⟩)] at e1
        have := s.roundTrips cfg h1 h2 x _ [] hv1 e1 trivial
        rw [List.append_nil, List.append_nil] at this
        rw [this]
        rw [List.nil_append] at hn
        obtain ⟨e, hd, hw⟩ := (k x).cuts (h3 x hv1) r b2 [] b2 hv2 e2 (by omega) rfl hn
        refine ⟨e, ?_, hw⟩
        show DecRes.bind ((k x).dec cfg _) _ = _
        rw [hd]
        rfl
      · rcases Props.cut_res cfg s h1 x hv1 he _ v t1 e1 (by omega) rfl ht (s.reserves_of_any h2) h2 with ⟨e, hd, hw⟩ | ⟨h, _⟩
        · exact ⟨e, by rw [hd]; rfl, hw.mono (by rw [List.length_append]; omega)⟩
        · exact absurd rfl h

theorem written : ∀ p : Protocol, p.All (fun s => s.tame cfg.prof = true) → (p.codec cfg).Written
  | done, _ => .pure _ trivial
  | msg s k, h => .bind (s.written cfg h.1) fun x _ => .bind ((k x).written (h.2 x)) fun _ _ => .pure _ trivial

theorem tame_dec : ∀ p : Protocol, p.All (fun s => s.tame cfg.prof = true) → Tame (p.dec cfg)
  | done, _ => .pure _
  | msg s k, h => .bind (s.tame_dec cfg h.1) fun x => .bind ((k x).tame_dec (h.2 x)) fun _ => .pure _

theorem canonical (hc : cfg.encLenOverride = false) : ∀ p : Protocol, p.All (fun s => s.canonical cfg = true) →
    Canonical (p.bytes cfg) (p.dec cfg)
  | done, _ => fun v a rest h => by cases h; exact ⟨[], rfl, rfl⟩
  | msg s k, h => fun v a rest hd => by
    have hd : DecRes.bind (s.dec cfg v) _ = _ := hd
    cases h1 : s.dec cfg v with
    | ok x v1 =>
      rw [h1] at hd
      have hd : DecRes.bind ((k x).dec cfg v1) _ = _ := hd
      cases h2 : (k x).dec cfg v1 with
      | ok r v2 =>
        rw [h2] at hd
        cases hd
        obtain ⟨b1, e1, rfl⟩ := s.canonical_ cfg h.1 v x v1 h1
        obtain ⟨b2, e2, rfl⟩ := (k x).canonical hc (h.2 x) v1 r rest h2
        rw [← Props.toBytes_wire (.inl hc)] at e1
        exact ⟨b1 ++ b2, bytes_cons.mpr ⟨b1, b2, e1, e2, rfl⟩, (List.append_assoc ..).symm⟩
      | _ => rw [h2] at hd; cases hd
    | _ => rw [h1] at hd; cases hd

theorem Ok.take : ∀ (n : Nat) (p : Protocol), p.Ok .any → (p.take n).Ok .any
  | 0, _, _ => trivial
  | _ + 1, done, _ => trivial
  | n + 1, Protocol.msg _ k, h => ⟨h.msg.1, .inl ⟨h.msg.2.1, fun x hx => (h.msg.2.2 x hx).take n⟩⟩

theorem valid_take : ∀ (n : Nat) (p : Protocol) (r : p.Run), p.Valid cfg r → (p.take n).Valid cfg (Run.take n p r)
  | 0, _, _, _ => trivial
  | _ + 1, done, _, _ => trivial
  | n + 1, msg _ k, ⟨x, r⟩, h => ⟨h.1, h.2.1, valid_take n (k x) r h.2.2⟩

theorem bytes_take : ∀ (n : Nat) (p : Protocol) (r : p.Run) (b : Bytes), p.bytes cfg r = some b →
    ∃ b1 b2, (p.take n).bytes cfg (Run.take n p r) = some b1 ∧ b = b1 ++ b2
  | 0, _, _, b, _ => ⟨[], b, rfl, rfl⟩
  | _ + 1, done, _, b, _ => ⟨[], b, rfl, rfl⟩
  | n + 1, msg _ k, ⟨x, r⟩, b, h => by
    obtain ⟨b1, b2, e1, e2, rfl⟩ := bytes_cons.mp h
    obtain ⟨b3, b4, e3, rfl⟩ := bytes_take n (k x) r b2 e2
    exact ⟨b1 ++ b3, b4, bytes_cons.mpr ⟨b1, b3, e1, e3, rfl⟩, (List.append_assoc ..).symm⟩

end Verif.Protocol
