import Verif.Lemmas.Effort
import Verif.Lemmas.Recursive
/-
The work done by `write_to` of recursive types.
-/
namespace Verif

section
variable {ρ ρ' : Nat → Schema} {f : ∀ i, (ρ i).Val → (ρ' i).Val} {cost : Nat → Nat} {l k : Nat}

theorem unlessKnown_congr {w w' : Option Nat} {n n' : Nat} (hw : w' = w) (hn : n' = n) : unlessKnown w' n' = unlessKnown w n := by
  rw [hw, hn]

mutual
theorem Schema.width_fill (hw : ∀ i, (ρ' i).width = (ρ i).width) : ∀ s : Schema, (s.fill ρ').width = (s.fill ρ).width
  | .unit | .bool | .int _ | .f64 | .rangedInt _ _ _ | .rangedFloat _ _ | .zarithN | .zarithZ | .bytes | .vecU8
  | .string | .fixedBytes _ | .fixedString _ | .cstyle _ _ | .data _ _ => rfl
  | .hole i => hw i
  | .option s | .nullable s | .dynamic _ s | .vpadded _ s | .padded _ s | .seq s | .fixSeq _ s | .limSeq _ s | .autobox s => by
    simp only [Schema.fill, Schema.width, s.width_fill hw]
  | .record fs => fs.width_fill hw
theorem Fields.width_fill (hw : ∀ i, (ρ' i).width = (ρ i).width) : ∀ fs : Fields, (fs.fill ρ').width = (fs.fill ρ).width
  | .nil => rfl
  | .cons s fs => by simp only [Fields.fill, Fields.width, s.width_fill hw, fs.width_fill hw]
end

mutual
theorem Schema.calls_mapFill (hw : ∀ i, (ρ' i).width = (ρ i).width) (hc : ∀ i x, (ρ' i).calls (f i x) = (ρ i).calls x) :
    ∀ (s : Schema) (x : (s.fill ρ).Val), (s.fill ρ').calls (s.mapFill f x) = (s.fill ρ).calls x
  | .unit, _ | .bool, _ | .int _, _ | .f64, _ | .rangedInt _ _ _, _ | .rangedFloat _ _, _ | .zarithN, _ | .zarithZ, _ | .bytes, _
  | .vecU8, _ | .string, _ | .fixedBytes _, _ | .fixedString _, _ | .cstyle _ _, _ => rfl
  | .option s, x =>
    congrArg (· + 1) (Option.map_size (t := (s.fill ρ').looks) (s := (s.fill ρ).looks) (fun x => unlessKnown_congr (s.width_fill hw) (s.calls_mapFill hw hc x)) x)
  | .nullable s, x =>
    congrArg (· + 1) (Option.map_size (t := (s.fill ρ').looks) (s := (s.fill ρ).looks) (fun x => unlessKnown_congr (s.width_fill hw) (s.calls_mapFill hw hc x)) x)
  | .dynamic _ s, x => congrArg (· + 1) (s.calls_mapFill hw hc x)
  | .vpadded _ s, x => congrArg (· + 1) (s.calls_mapFill hw hc x)
  | .padded _ s, x => congrArg (· + 1) (s.calls_mapFill hw hc x)
  | .seq s, x => congrArg (· + 1) (List.map_size (t := (s.fill ρ').looks) (s := (s.fill ρ).looks) (fun x => unlessKnown_congr (s.width_fill hw) (s.calls_mapFill hw hc x)) x)
  | .fixSeq _ s, x => congrArg (· + 1) (List.map_size (s.calls_mapFill hw hc) x)
  | .limSeq _ s, x => congrArg (· + 1) (List.map_size (t := (s.fill ρ').looks) (s := (s.fill ρ).looks) (fun x => unlessKnown_congr (s.width_fill hw) (s.calls_mapFill hw hc x)) x)
  | .autobox s, x => congrArg (· + 1) (s.calls_mapFill hw hc x)
  | .hole i, x => hc i x
  | .data _ vs, x => congrArg (· + 1) (vs.calls_mapFill hw hc x)
  | .record fs, x => congrArg (· + 1) (fs.calls_mapFill hw hc x)
theorem Variants.calls_mapFill (hw : ∀ i, (ρ' i).width = (ρ i).width) (hc : ∀ i x, (ρ' i).calls (f i x) = (ρ i).calls x) :
    ∀ (vs : Variants) (x : (vs.fill ρ).Val), (vs.fill ρ').calls (vs.mapFill f x) = (vs.fill ρ).calls x
  | .nil, x => nomatch (x : Empty)
  | .cons _ s _, .inl x => unlessKnown_congr (s.width_fill hw) (s.calls_mapFill hw hc x)
  | .cons _ _ vs, .inr x => vs.calls_mapFill hw hc x
theorem Fields.calls_mapFill (hw : ∀ i, (ρ' i).width = (ρ i).width) (hc : ∀ i x, (ρ' i).calls (f i x) = (ρ i).calls x) :
    ∀ (fs : Fields) (x : (fs.fill ρ).Val), (fs.fill ρ').calls (fs.mapFill f x) = (fs.fill ρ).calls x
  | .nil, _ => rfl
  | .cons s fs, x => by
    have h1 := s.calls_mapFill hw hc x.1
    have h2 := fs.calls_mapFill hw hc x.2
    exact congr (congrArg HAdd.hAdd h1) h2
end

mutual
theorem Schema.work_mapFill (hw : ∀ i, (ρ' i).width = (ρ i).width) (hc : ∀ i x, (ρ' i).calls (f i x) = (ρ i).calls x)
    (h : ∀ i x, (ρ' i).work cost l k (f i x) = (ρ i).work cost l k x) : ∀ (s : Schema) (x : (s.fill ρ).Val),
    (s.fill ρ').work cost l k (s.mapFill f x) = (s.fill ρ).work cost l k x
  | .unit, _ | .bool, _ | .int _, _ | .f64, _ | .rangedInt _ _ _, _ | .rangedFloat _ _, _ | .zarithN, _ | .zarithZ, _ | .bytes, _
  | .vecU8, _ | .string, _ | .fixedBytes _, _ | .fixedString _, _ | .cstyle _ _, _ => rfl
  | .option s, x => congrArg (cost 1 + ·) (Option.map_size (s.work_mapFill hw hc h) x)
  | .nullable s, x => Option.map_size (s.work_mapFill hw hc h) x
  | .dynamic S s, x => by
    have e1 : (s.fill ρ').looks (s.mapFill f x) = (s.fill ρ).looks x := unlessKnown_congr (s.width_fill hw) (s.calls_mapFill hw hc x)
    have e2 := s.work_mapFill hw hc h x
    exact congr (congrArg (fun a b => cost S.len + l * a + k * b) e1) e2
  | .vpadded _ s, x => s.work_mapFill hw hc h x
  | .padded n s, x => congrArg (· + cost n) (s.work_mapFill hw hc h x)
  | .seq s, x => List.map_size (s.work_mapFill hw hc h) x
  | .fixSeq _ s, x => List.map_size (s.work_mapFill hw hc h) x
  | .limSeq _ s, x => List.map_size (s.work_mapFill hw hc h) x
  | .autobox s, x => s.work_mapFill hw hc h x
  | .hole i, x => h i x
  | .data w vs, x => congrArg (cost w.len + ·) (vs.work_mapFill hw hc h x)
  | .record fs, x => fs.work_mapFill hw hc h x
theorem Variants.work_mapFill (hw : ∀ i, (ρ' i).width = (ρ i).width) (hc : ∀ i x, (ρ' i).calls (f i x) = (ρ i).calls x)
    (h : ∀ i x, (ρ' i).work cost l k (f i x) = (ρ i).work cost l k x) :
    ∀ (vs : Variants) (x : (vs.fill ρ).Val), (vs.fill ρ').work cost l k (vs.mapFill f x) = (vs.fill ρ).work cost l k x
  | .nil, x => nomatch (x : Empty)
  | .cons _ s _, .inl x => s.work_mapFill hw hc h x
  | .cons _ _ vs, .inr x => vs.work_mapFill hw hc h x
theorem Fields.work_mapFill (hw : ∀ i, (ρ' i).width = (ρ i).width) (hc : ∀ i x, (ρ' i).calls (f i x) = (ρ i).calls x)
    (h : ∀ i x, (ρ' i).work cost l k (f i x) = (ρ i).work cost l k x) :
    ∀ (fs : Fields) (x : (fs.fill ρ).Val), (fs.fill ρ').work cost l k (fs.mapFill f x) = (fs.fill ρ).work cost l k x
  | .nil, _ => rfl
  | .cons s fs, x => by
    have h1 := s.work_mapFill hw hc h x.1
    have h2 := fs.work_mapFill hw hc h x.2
    exact congr (congrArg HAdd.hAdd h1) h2
end
end

namespace Decls

variable (d : Decls) (cost : Nat → Nat) (l k : Nat)

theorem width_lift (n i : Nat) : (d.unfold (n + 1) i).width = (d.unfold n i).width := (d.width (n + 1) i).trans (d.width n i).symm

theorem calls_lift : ∀ n i x, (d.unfold (n + 1) i).calls (d.lift n i x) = (d.unfold n i).calls x
  | 0, _, x => nomatch x
  | n + 1, i, x => (d.body i).calls_mapFill (d.width_lift n) (calls_lift n) x

theorem work_lift : ∀ n i x, (d.unfold (n + 1) i).work cost l k (d.lift n i x) = (d.unfold n i).work cost l k x
  | 0, _, x => nomatch x
  | n + 1, i, x => (d.body i).work_mapFill (d.width_lift n) (d.calls_lift n) (work_lift n) x

/-- As `Schema.calls` for values of recursive types. -/
def calls {i : Nat} : d.Val i → Nat :=
  Quot.lift (fun p => (d.unfold p.1 i).calls p.2) fun _ _ h => by
    cases h with
    | step n x => exact (d.calls_lift n i x).symm

/-- As `Schema.work` for values of recursive types. -/
def work {i : Nat} : d.Val i → Nat :=
  Quot.lift (fun p => (d.unfold p.1 i).work cost l k p.2) fun _ _ h => by
    cases h with
    | step n x => exact (d.work_lift cost l k n i x).symm

end Decls

namespace Decls

variable (d : Decls)

/-- `Estimable` of the `i`-th type of a family, as `Decls.codec`, with a counter (src/autobox.rs:258-267 and the derived code of its
definition): the code of any unfolding that has the value. -/
noncomputable def gauge (i : Nat) : Gauge (d.Val i) where
  known := none
  unknown := Quot.lift (fun p => (d.unfold p.1 i).gauge.unknown p.2) fun _ _ h => by
    cases h with
    | step n x =>
      let cfg : Cfg := ⟨.debug, false, false, false⟩
      rw [((d.unfold n i).gauge_eq cfg).unknown x, ((d.unfold (n + 1) i).gauge_eq cfg).unknown (d.lift n i x), d.calls_lift,
        (d.lift_sim cfg n i).unknown]

theorem gauge_eq (cfg : Cfg) (i : Nat) : (d.gauge i).Agrees (d.codec cfg i) none d.calls where
  width := rfl
  known := rfl
  unknown a := by
    induction a using Quot.ind with
    | mk p => exact ((d.unfold p.1 i).gauge_eq cfg).unknown p.2

/-- `Encode` of the `i`-th type of a family, as `Decls.codec`, with a counter (src/autobox.rs:246-252 and the derived code of its
definition): the code of any unfolding that has the value. -/
noncomputable def costed (cost : Nat → Nat) (look : Nat) (cfg : Cfg) (i : Nat) : Costed (d.Val i) where
  write T := Quot.lift (fun p => ((d.unfold p.1 i).costed cost look cfg).write T p.2) fun _ _ h => by
    cases h with
    | step n x =>
      refine Pays.unique ((d.unfold n i).counts cost look cfg T x) ?_
      have h := (d.unfold (n + 1) i).counts cost look cfg T (d.lift n i x)
      rwa [(d.lift_sim cfg n i).write, d.work_lift] at h

theorem counts (cost : Nat → Nat) (look : Nat) (cfg : Cfg) (i : Nat) :
    (d.costed cost look cfg i).Counts (d.codec cfg i) (d.work cost (cfg.fee look) cfg.times) :=
  fun T a => by
    induction a using Quot.ind with
    | mk p => exact (d.unfold p.1 i).counts cost look cfg T p.2

end Decls

end Verif
