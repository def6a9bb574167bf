import Verif.Spec.Exchange
import Verif.Lemmas.HandWritten
import Verif.Lemmas.Sorts
import Verif.Props.UserTypes
import Verif.Props.Recursive
import Verif.Props.Cut
/-
Recursive types keep the promises made for hand-written ones, and runs of messages do if the messages do.
-/
namespace Verif

open Codec

namespace Decls

variable (d : Decls) {i : Nat} {cfg : Cfg}

theorem writes (cfg : Cfg) (i : Nat) : (d.codec cfg i).Writes (d.codec cfg i).toBytes := by
  intro τ T R L a
  obtain ⟨n, x, rfl⟩ := d.exists_val a
  exact Writes.appending ((d.unfold n i).writes_out cfg) L x

theorem parse_limit (cfg : Cfg) (i : Nat) {σ : Type} (P : ParserOps σ) :
    (d.codec cfg i).parse P = recM fun n => d.val n <$> ((d.unfold n i).codec cfg).parse P := by
  funext s
  by_cases h : ∃ n, ((d.unfold n i).codec cfg).parse P s ≠ .diverge
  · obtain ⟨n, h⟩ := h
    rw [d.parse_eq h, recM_eq (n := n)]
    · intro n s
      rcases d.sim_val cfg i 1 n P s with h | h
      · exact .inl (by rw [M.map_run, h]; rfl)
      · exact .inr h
    · rw [M.map_run]
      revert h
      cases ((d.unfold n i).codec cfg).parse P s <;> simp
  · have e : (d.codec cfg i).parse P s = .diverge := dif_neg h
    rw [e]
    have hn : ¬ ∃ n, (d.val n <$> ((d.unfold n i).codec cfg).parse P) s ≠ .diverge := by
      rintro ⟨n, hn⟩
      refine h ⟨n, fun e => hn ?_⟩
      rw [M.map_run, e]
      rfl
    have e : recM (fun n => d.val n <$> ((d.unfold n i).codec cfg).parse P) s = .diverge := dif_neg hn
    exact e.symm

theorem composed {E : ParseError → Prop} [Allows E] (ht : ∀ j, (d.body j).tame cfg.prof = true) (i : Nat) :
    (d.codec cfg i).Composed E := by
  have e : (fun (σ : Type) (P : ParserOps σ) => (d.codec cfg i).parse P) =
      fun σ P => recM fun n => d.val n <$> ((d.unfold n i).codec cfg).parse P := by
    funext σ P
    exact d.parse_limit cfg i P
  show Composed E _ _
  rw [e]
  refine .recur (f := fun n _ P => d.val n <$> ((d.unfold n i).codec cfg).parse P)
    (fun n => Composed.map _ ((d.unfold n i).composed cfg (d.tame cfg.prof ht n i)) fun _ _ => trivial) fun n σ P s => ?_
  rcases d.sim_val cfg i 1 n P s with h | h
  · exact .inl (by rw [M.map_run, h]; rfl)
  · exact .inr h

/-- A well-formed value with its encoding, in an unfolding that is deep enough. -/
def Stored (cfg : Cfg) (i : Nat) (a : d.Val i) (b : Bytes) : Prop :=
  (d.Valid a ∧ (cfg.encLenOverride = true → d.EstOk a)) ∧ (d.codec cfg i).toBytes a = some b

theorem Stored.at {a : d.Val i} {b : Bytes} (h : d.Stored cfg i a b) :
    ∃ n x, a = d.val n x ∧ (d.unfold n i).Valid x ∧ (d.unfold n i).wire x = some b := by
  obtain ⟨⟨hv, he⟩, hb⟩ := h
  have : (cfg.encLenOverride = false ∧ d.Valid a) ∨ d.PrefixOk a := by
    cases ho : cfg.encLenOverride with
    | false => exact .inl ⟨rfl, hv⟩
    | true =>
      obtain ⟨n, x, rfl, h1, h2⟩ := he ho
      exact .inr ⟨n, x, rfl, h1, h2.prefixOk⟩
  obtain ⟨n, x, h1, h2, h3, _⟩ := Props.rec_valid_wire cfg d this hb
  exact ⟨n, x, h1, h2, h3⟩

theorem wire_at {n m : Nat} {x : (d.unfold n i).Val} {y : (d.unfold m i).Val} (h : d.val n x = d.val m y) :
    (d.unfold m i).wire y = (d.unfold n i).wire x :=
  (Props.C52_encode ⟨.release, false, false, false⟩ d rfl n x).2 m y h

theorem Stored.unique (hst : d.Stable) (ht : ∀ j, (d.body j).tagsOk) {tl : Tail} (htl : (d.body i).tail = some tl)
    {a a' : d.Val i} {b b' t t' : Bytes} (h : d.Stored cfg i a b) (h' : d.Stored cfg i a' b') (hl : tl.Allows t)
    (hl' : tl.Allows t') (e : b ++ t = b' ++ t') : a = a' ∧ t = t' := by
  obtain ⟨n, x, rfl, h1, h2⟩ := h.at
  obtain ⟨m, y, rfl, h3, h4⟩ := h'.at
  obtain ⟨k, x', y', e1, e2, h5, h6⟩ := d.exists_two_valid x y h1 h3
  rw [d.wire_at e1] at h2
  rw [d.wire_at e2] at h4
  have r1 := (d.unfold k i).roundTrips cfg (d.tagsOk ht k i) (d.tail hst htl x') x' b t h5 h2 hl
  have r2 := (d.unfold k i).roundTrips cfg (d.tagsOk ht k i) (d.tail hst htl y') y' b' t' h6 h4 hl'
  rw [e, r2] at r1
  cases r1
  exact ⟨e1.symm.trans e2, rfl⟩

open Classical in
/-- What the code of a recursive type makes of the bytes. -/
noncomputable def dec (cfg : Cfg) (i : Nat) (tl : Tail) : D (d.Val i) := fun v =>
  if h : ∃ q : d.Val i × Bytes × Bytes, d.Stored cfg i q.1 q.2.1 ∧ tl.Allows q.2.2 ∧ v = q.2.1 ++ q.2.2 then
    .ok h.choose.1 h.choose.2.2
  else D.recur (fun n v => ((d.unfold n i).dec cfg v).bind fun x r => .ok (d.val n x) r) v

theorem dec_parses (hst : d.Stable) (ht : ∀ j, (d.body j).tagsOk) {tl : Tail} (htl : (d.body i).tail = some tl) :
    (d.codec cfg i).Parses True (d.dec cfg i tl) := by
  intro σ P pan R L v vs s hs
  have hm : ∀ n, Meets (True ∧ pan) R vs (((d.unfold n i).codec cfg).parse P s) ((d.unfold n i).dec cfg v) := fun n =>
    ((d.unfold n i).parses cfg L v vs s hs).mono (And.imp (fun _ => trivial) id)
  unfold dec
  split
  · rename_i h
    obtain ⟨h1, h2, h3⟩ := h.choose_spec
    obtain ⟨n, x, e, h4, h5⟩ := h1.at
    have r := (d.unfold n i).roundTrips cfg (d.tagsOk ht n i) (d.tail hst htl x) x _ _ h4 h5 h2
    have := hm n
    rw [h3, r] at this
    obtain ⟨s', h6, h7⟩ := this
    exact ⟨s', (d.parse_ok h6).trans (by rw [← e]), h7⟩
  · unfold D.recur
    split
    · rename_i h
      have hn := h.choose_spec
      generalize h.choose = n at hn ⊢
      have hm := hm n
      dsimp only at hn ⊢
      revert hm hn
      cases (d.unfold n i).dec cfg v with
      | ok x r =>
        intro _ ⟨s', h6, h7⟩
        exact ⟨s', d.parse_ok h6, h7⟩
      | err e =>
        rintro _ (⟨e', s', h6, h7⟩ | ⟨h6, h7⟩)
        · exact .inl ⟨e', s', by rw [d.parse_eq (n := n) (by rw [h6]; nofun), M.map_run, h6]; rfl, h7⟩
        · exact .inr ⟨h6, by rw [d.parse_eq (n := n) (by rw [h7]; nofun), M.map_run, h7]; rfl⟩
      | panic =>
        intro _ h7
        have h7 : ((d.unfold n i).codec cfg).parse P s = .panic := h7
        show _ = _
        rw [d.parse_eq (n := n) (by rw [h7]; nofun), M.map_run, h7]
        rfl
      | diverge => exact fun h => absurd rfl h
      | wild => exact fun _ _ => trivial
    · rename_i h
      show _ = _
      refine dif_neg ?_
      rintro ⟨n, hn⟩
      refine h ⟨n, fun e => hn ?_⟩
      have hm := hm n
      dsimp only at e
      revert e hm
      cases (d.unfold n i).dec cfg v with
      | diverge => exact fun _ h => h
      | _ => exact fun e => nomatch e

theorem dec_roundTrips (hst : d.Stable) (ht : ∀ j, (d.body j).tagsOk) {tl : Tail} (htl : (d.body i).tail = some tl) :
    RoundTrips (d.codec cfg i).toBytes (d.dec cfg i tl) (fun a => d.Valid a ∧ (cfg.encLenOverride = true → d.EstOk a)) tl := by
  intro a b t hv hb hl
  have h : ∃ q : d.Val i × Bytes × Bytes, d.Stored cfg i q.1 q.2.1 ∧ tl.Allows q.2.2 ∧ b ++ t = q.2.1 ++ q.2.2 :=
    ⟨(a, b, t), ⟨hv, hb⟩, hl, rfl⟩
  have e : d.dec cfg i tl (b ++ t) = .ok h.choose.1 h.choose.2.2 := dif_pos h
  obtain ⟨h1, h2, h3⟩ := h.choose_spec
  obtain ⟨e1, e2⟩ := Stored.unique d hst ht htl ⟨hv, hb⟩ h1 hl h2 h3
  rw [e, ← e1, ← e2]

theorem contract (hst : d.Stable) (ht : ∀ j, (d.body j).tagsOk) {tl : Tail} (htl : (d.body i).tail = some tl) :
    Contract cfg (d.codec cfg i) (fun a => d.Valid a ∧ (cfg.encLenOverride = true → d.EstOk a)) tl (d.body i).nonempty none where
  writes := d.writes cfg i
  parses := ⟨_, d.dec_parses hst ht htl, d.dec_roundTrips hst ht htl⟩
  nonEmpty hn a b hv hb := by
    obtain ⟨n, x, rfl, h1, h2⟩ := Stored.at d ⟨hv, hb⟩
    exact (d.unfold n i).nonEmpty (d.nonempty hst hn n) x b h1 h2
  width := nofun
  estimates ho a b hv hb := by
    have := Props.C52_estimate cfg d a (hv.2 ho) b hb
    exact ⟨this, nofun⟩

end Decls

namespace Exchange

variable {cfg : Cfg}

theorem bytes_cons {α : Type} {c : Codec α} {k : α → Exchange} {x : α} {r : (k x).Run} {b : Bytes} :
    (msg c k).bytes ⟨x, r⟩ = some b ↔ ∃ b1 b2, c.toBytes x = some b1 ∧ (k x).bytes r = some b2 ∧ b = b1 ++ b2 := cat_eq_some

theorem of_done {e : Exchange} (h : e = done) {r : e.Run} {b : Bytes} (hb : e.bytes r = some b) : b = [] := by
  subst h
  cases hb
  rfl

theorem writes : ∀ e : Exchange, e.All (fun c => c.Writes c.toBytes) → e.codec.Writes e.bytes
  | done, _ => fun _ _ => Appends.zero
  | msg c k, h => fun L ⟨x, r⟩ => (h.1 L x).add ((k x).writes (h.2 x) L r)

theorem written : ∀ e : Exchange, e.All (fun c => c.Written) → e.codec.Written
  | done, _ => .pure _ trivial
  | msg c k, h => .bind h.1 fun x _ => .bind ((k x).written (h.2 x)) fun _ _ => .pure _ trivial

theorem means_done {e : Exchange} (h : e = done) {W : e.Run → Prop} {tl : Tail} :
    ∃ d, e.codec.Parses True d ∧ RoundTrips e.bytes d W tl := by
  subst h
  exact ⟨pure (), fun _ => Refines.pure (), fun _ _ _ _ hb _ => by cases hb; rfl⟩

theorem means {tl : Tail} : ∀ (e : Exchange) (W : e.Run → Prop), e.Kept cfg tl W →
    ∃ d, e.codec.Parses True d ∧ RoundTrips e.bytes d W tl
  | done, _, _ => means_done rfl
  | @msg α c k, W, h => by
    classical
    obtain ⟨V, ne, w, hV, h⟩ := h
    -- what the first message and the others make of the bytes
    obtain ⟨d1, hp, hr, h2⟩ : ∃ d1 : D α, c.Parses True d1 ∧
        (∀ x b1 (r : (k x).Run) b2 t, V x → c.toBytes x = some b1 → (k x).bytes r = some b2 → tl.Allows t →
          d1 (b1 ++ (b2 ++ t)) = .ok x (b2 ++ t)) ∧
        ∀ x, V x → ∃ d, (k x).codec.Parses True d ∧ RoundTrips (k x).bytes d (fun r => W ⟨x, r⟩) tl := by
      rcases h with ⟨hc, hk⟩ | ⟨hc, hk⟩
      · obtain ⟨d1, h1, h2⟩ := hc.parses
        exact ⟨d1, h1, fun x b1 r b2 t hx e1 _ _ => h2 x b1 _ hx e1 trivial, fun x hx => means (k x) _ (hk x hx)⟩
      · obtain ⟨d1, h1, h2⟩ := hc.parses
        refine ⟨d1, h1, fun x b1 r b2 t hx e1 e2 ht => ?_, fun x _ => means_done (hk x)⟩
        obtain rfl := of_done (hk x) e2
        exact h2 x b1 _ hx e1 ht
    let d2 : (x : α) → D (k x).Run := fun x => if hx : V x then (h2 x hx).choose else fun _ => .wild
    refine ⟨d1 >>= fun x => d2 x >>= fun r => pure ⟨x, r⟩, fun L => Refines.bind (hp L) fun x => Refines.bind ?_ fun _ => Refines.pure _, ?_⟩
    · by_cases hx : V x
      · have e : d2 x = (h2 x hx).choose := dif_pos hx
        rw [e]
        exact (h2 x hx).choose_spec.1 L
      · have e : d2 x = fun _ => .wild := dif_neg hx
        rw [e]
        exact fun _ _ _ _ => trivial
    · rintro ⟨x, r⟩ b t hw hb ht
      obtain ⟨b1, b2, e1, e2, rfl⟩ := bytes_cons.mp hb
      have hx := hV _ hw
      rw [List.append_assoc]
      show DecRes.bind (d1 _) _ = _
      rw [hr x b1 r b2 t hx e1 e2 ht]
      show DecRes.bind (d2 x _) _ = _
      have e : d2 x = (h2 x hx).choose := dif_pos hx
      rw [e, (h2 x hx).choose_spec.2 r b2 t hw e2 ht]
      rfl

theorem estimates (ho : cfg.encLenOverride = true) {tl : Tail} : ∀ (e : Exchange) (W : e.Run → Prop), e.Kept cfg tl W →
    ∀ r b, W r → e.bytes r = some b → e.estimate r = b.length
  | done, _, _, _, _, _, hb => by cases hb; rfl
  | @msg α c k, W, h, ⟨x, r⟩, b, hw, hb => by
    obtain ⟨V, ne, w, hV, h⟩ := h
    obtain ⟨b1, b2, e1, e2, rfl⟩ := bytes_cons.mp hb
    have hx := hV _ hw
    show c.estimate x + (k x).estimate r = _
    rw [List.length_append]
    rcases h with ⟨hc, hk⟩ | ⟨hc, hk⟩
    · rw [hc.estimate ho x b1 hx e1, estimates ho (k x) _ (hk x hx) r b2 hw e2]
    · obtain rfl := of_done (hk x) e2
      rw [hc.estimate ho x b1 hx e1]
      have : ∀ e : Exchange, e = done → ∀ r : e.Run, e.estimate r = 0 := by rintro _ rfl _; rfl
      rw [this _ (hk x) r]
      rfl

theorem kept_msg {α : Type} {c : Codec α} {k : α → Exchange} {W : (msg c k).Run → Prop} (h : (msg c k).Kept cfg .any W) :
    ∃ (V : α → Prop) (ne : Bool) (w : Option Nat), (∀ r, W r → V r.1) ∧ Contract cfg c V .any ne w ∧
      ∀ x, V x → (k x).Kept cfg .any fun r => W ⟨x, r⟩ := by
  obtain ⟨V, ne, w, hV, ⟨h1, h2⟩ | ⟨h1, h2⟩⟩ := h
  · exact ⟨V, ne, w, hV, h1, h2⟩
  · refine ⟨V, ne, w, hV, h1, fun x _ => ?_⟩
    suffices hh : ∀ e : Exchange, e = .done → ∀ W : e.Run → Prop, e.Kept cfg .any W from hh _ (h2 x) _
    rintro _ rfl _
    trivial

/-- What has arrived of a run is not taken for a run. -/
theorem cuts : ∀ (e : Exchange) (W : e.Run → Prop), e.Kept cfg .any W → e.Cuts cfg W → ∀ r b v t, W r → e.bytes r = some b →
    b.length ≤ isizeMax → b = v ++ t → t ≠ [] → ∀ (q : Backend) (vs : List Bytes) (st : q.State), q.Holds v vs st →
      (∃ er st', e.read (q.ops cfg.prof) st = .err er st' ∧ er.WantsMore t.length) ∨
      (q ≠ .slice ∧ cfg.prof = .debug ∧ e.read (q.ops cfg.prof) st = .panic)
  | done, _, _, _, _, b, v, t, _, hb, _, e, hn, _, _, _, _ => by
    cases hb
    exact absurd (List.append_eq_nil_iff.mp e.symm).2 hn
  | @msg α c k, W, hk, hc, ⟨x, r⟩, b, v, t, hw, hb, hl, e, hn, q, vs, st, hs => by
    obtain ⟨V, ne, w, hV, h1, h2⟩ := kept_msg hk
    obtain ⟨V', hV', h3, h4⟩ := hc
    obtain ⟨b1, b2, e1, e2, rfl⟩ := bytes_cons.mp hb
    rw [List.length_append] at hl
    have hx := hV _ hw
    have hx' := hV' _ hw
    -- if the first message is there, the rest is cut off
    have rest : ∀ v2, v = b1 ++ v2 → b2 = v2 ++ t →
        (∃ er st', (msg c k).read (q.ops cfg.prof) st = .err er st' ∧ er.WantsMore t.length) ∨
        (q ≠ .slice ∧ cfg.prof = .debug ∧ (msg c k).read (q.ops cfg.prof) st = .panic) := by
      rintro v2 rfl e'
      obtain ⟨st1, g1, g2⟩ := Props.C94_round_trip h1 x hx b1 e1 v2 trivial q vs st hs
      have run : (msg c k).read (q.ops cfg.prof) st = ((k x).read (q.ops cfg.prof) st1).bind fun r s => .ok ⟨x, r⟩ s := by
        show (c.parse (q.ops cfg.prof) st).bind _ = _
        rw [g1]
        rfl
      rw [run]
      rcases cuts (k x) _ (h2 x hx) (h4 x hx') r b2 v2 t hw e2 (by omega) e' hn q vs st1 g2 with ⟨er, st', g3, g4⟩ | ⟨g3, g4, g5⟩
      · exact .inl ⟨er, st', by rw [g3]; rfl, g4⟩
      · exact .inr ⟨g3, g4, by rw [g5]; rfl⟩
    rcases List.append_eq_append_iff.mp e with ⟨v2, rfl, e'⟩ | ⟨t1, rfl, rfl⟩
    · exact rest v2 rfl e'
    · by_cases ht : t1 = []
      · subst ht
        exact rest [] (by simp) (by simp)
      · have run : ∀ o, c.parse (q.ops cfg.prof) st = o → (msg c k).read (q.ops cfg.prof) st =
            o.bind fun x s => ((k x).read (q.ops cfg.prof) s).bind fun r s => .ok ⟨x, r⟩ s := by
          rintro _ rfl
          rfl
        rcases h3 x _ v t1 hx' e1 (by omega) rfl ht q vs st hs with ⟨er, st', g3, g4⟩ | ⟨g3, g4, g5⟩
        · exact .inl ⟨er, st', by rw [run _ g3]; rfl, g4.mono (by rw [List.length_append]; omega)⟩
        · exact .inr ⟨g3, g4, by rw [run _ g5]; rfl⟩

/-- A run of messages is itself a type whose implementations go together. -/
theorem Kept.take : ∀ (n : Nat) (e : Exchange) (W : e.Run → Prop), e.Kept cfg .any W →
    (e.take n).Kept cfg .any fun r' => ∃ r, W r ∧ Run.take n e r = r'
  | 0, _, _, _ => trivial
  | _ + 1, Exchange.done, _, _ => trivial
  | n + 1, @Exchange.msg α c k, W, h => by
    obtain ⟨V, ne, w, hV, h1, h2⟩ := kept_msg h
    refine ⟨V, ne, w, ?_, .inl ⟨h1, fun x hx => ?_⟩⟩
    · rintro _ ⟨r, hr, rfl⟩
      exact hV r hr
    · have := Kept.take n (k x) _ (h2 x hx)
      suffices e : (fun r' => ∃ r, W r ∧ Run.take (n + 1) (msg c k) r = ⟨x, r'⟩) =
          fun r' => ∃ r, W ⟨x, r⟩ ∧ Run.take n (k x) r = r' from cast (congrArg _ e.symm) this
      funext r'
      refine propext ⟨?_, ?_⟩
      · rintro ⟨⟨y, r⟩, hr, e⟩
        cases e
        exact ⟨r, hr, rfl⟩
      · rintro ⟨r, hr, rfl⟩
        exact ⟨⟨x, r⟩, hr, rfl⟩

theorem Cuts.take : ∀ (n : Nat) (e : Exchange) (W : e.Run → Prop), e.Cuts cfg W →
    (e.take n).Cuts cfg fun r' => ∃ r, W r ∧ Run.take n e r = r'
  | 0, _, _, _ => trivial
  | _ + 1, Exchange.done, _, _ => trivial
  | n + 1, @Exchange.msg α c k, W, h => by
    obtain ⟨V, hV, h1, h2⟩ := h
    refine ⟨V, ?_, h1, fun x hx => ?_⟩
    · rintro _ ⟨r, hr, rfl⟩
      exact hV r hr
    · have := Cuts.take n (k x) _ (h2 x hx)
      suffices e : (fun r' => ∃ r, W r ∧ Run.take (n + 1) (msg c k) r = ⟨x, r'⟩) =
          fun r' => ∃ r, W ⟨x, r⟩ ∧ Run.take n (k x) r = r' from cast (congrArg _ e.symm) this
      funext r'
      refine propext ⟨?_, ?_⟩
      · rintro ⟨⟨y, r⟩, hr, e⟩
        cases e
        exact ⟨r, hr, rfl⟩
      · rintro ⟨r, hr, rfl⟩
        exact ⟨⟨x, r⟩, hr, rfl⟩

theorem bytes_take : ∀ (n : Nat) (e : Exchange) (r : e.Run) (b : Bytes), e.bytes r = some b →
    ∃ b1 b2, (e.take n).bytes (Run.take n e r) = some b1 ∧ b = b1 ++ b2
  | 0, _, _, b, _ => ⟨[], b, rfl, rfl⟩
  | _ + 1, done, _, b, _ => ⟨[], b, rfl, rfl⟩
  | n + 1, msg _ k, ⟨x, r⟩, b, h => by
    obtain ⟨b1, b2, e1, e2, rfl⟩ := bytes_cons.mp h
    obtain ⟨b3, b4, e3, rfl⟩ := bytes_take n (k x) r b2 e2
    exact ⟨b1 ++ b3, b4, bytes_cons.mpr ⟨b1, b3, e1, e3, rfl⟩, (List.append_assoc ..).symm⟩

theorem bind_inv {σ ε α β : Type} {m : M σ ε α} {f : α → M σ ε β} {s s' : σ} {b : β} (h : (m >>= f) s = .ok b s') :
    ∃ a s1, m s = .ok a s1 ∧ f a s1 = .ok b s' := by
  rw [M.bind_run] at h
  cases hm : m s with
  | ok a s1 => rw [hm] at h; exact ⟨a, s1, rfl, h⟩
  | _ => rw [hm] at h; cases h

theorem rewrites : ∀ e : Exchange, (e.All fun c => c.Rewrites cfg) → ∀ (q : Backend) (v : Bytes) (vs : List Bytes) (st st' : q.State)
    (r : e.Run), q.Holds v vs st → e.read (q.ops cfg.prof) st = .ok r st' →
    ∃ b rest, e.bytes r = some b ∧ v = b ++ rest ∧ q.Holds rest vs st'
  | done, _, q, v, vs, st, st', r, hs, h => by
    cases h
    exact ⟨[], v, rfl, rfl, hs⟩
  | @msg α c k, ha, q, v, vs, st, st', ⟨x, r⟩, hs, h => by
    rw [Exchange.read] at h
    obtain ⟨y, st1, h1, h⟩ := bind_inv h
    obtain ⟨r1, st2, h2, h⟩ := bind_inv h
    cases h
    obtain ⟨b1, rest1, e1, rfl, hs1⟩ := ha.1 q v vs st st1 x hs h1
    obtain ⟨b2, rest2, e2, rfl, hs2⟩ := rewrites (k x) (ha.2 x) q rest1 vs st1 _ r hs1 h2
    exact ⟨b1 ++ b2, rest2, bytes_cons.mpr ⟨b1, b2, e1, e2, rfl⟩, (List.append_assoc ..).symm, hs2⟩

theorem contract {tl : Tail} (e : Exchange) {W : e.Run → Prop} (ha : e.All fun c => c.Writes c.toBytes) (hk : e.Kept cfg tl W) :
    Contract cfg e.codec W tl false none := by
  obtain ⟨d, h1, h2⟩ := means e W hk
  exact Contract.of (e.writes ha) h1 h2 nofun nofun fun ho r b hw hb => ⟨estimates ho e W hk r b hw hb, nofun⟩

end Exchange

end Verif
