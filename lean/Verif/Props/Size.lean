import Verif.Lemmas.Size
import Verif.Lemmas.Cost
import Verif.Lemmas.Sound
import Verif.Props.Recursive
import Verif.Props.Schema
/-
C67: how large decoded values are.
-/
namespace Verif.Props

open Codec

/-- Every value decoded, on every parser and from every input, has at most size `A` and `B` for each byte read. -/
def SizeLinear {α : Type} (size : α → Nat) (c : Codec α) (cfg : Cfg) (A B : Nat) : Prop :=
  ∀ (k : Backend) (v : Bytes) (vs : List Bytes) (st st' : k.State) (x : α), k.Holds v vs st →
    c.parse (k.ops cfg.prof) st = .ok x st' →
    ∃ v', k.Holds v' vs st' ∧ v'.length ≤ v.length ∧ size x ≤ A + B * (v.length - v'.length)

theorem size_of_small {α : Type} {sz : α → Nat} {A B E : Nat} {d : D α} (h : Small sz B A A E d) {v r : Bytes} {a : α}
    (hd : d v = .ok a r) : r.length ≤ v.length ∧ sz a ≤ A + B * (v.length - r.length) := by
  rcases h v a r hd with ⟨h1, h2⟩ | ⟨h1, h2⟩
  · exact ⟨by omega, by omega⟩
  · refine ⟨by omega, ?_⟩
    have : B * (v.length - r.length) + B * r.length = B * v.length := by
      rw [← Nat.mul_add]; congr 1; omega
    omega

/-- C67: for every type there are constants such that in every build, on every parser and for every input, the size of
the decoded value is at most linear in the number of bytes read. -/
theorem C67_linear (s : Schema) (hs : s.sized = true) : ∃ A B, ∀ cfg : Cfg, SizeLinear s.size (s.codec cfg) cfg A B := by
  refine ⟨s.over .hole 0, 2 * s.over .hole 0 + 7, fun cfg k v vs st st' x hh he => ?_⟩
  obtain ⟨r, h1, h2⟩ := s.inv cfg hs hh he
  exact ⟨r, h2, size_of_small (s.small cfg rfl) h1⟩

/-- C67 for recursive types (finitely many of them) in which recursion happens only after something has been read. -/
theorem C67_linear_recursive (d : Decls) (hst : d.Stable) (hg : d.Paced) (l : List Schema) (hl : ∀ i, d.body i ∈ l) :
    ∃ A B, ∀ (cfg : Cfg) (i : Nat), SizeLinear d.size (d.codec cfg i) cfg A B := by
  obtain ⟨H, hH⟩ := bounded_of_mem (fun s => s.free d.body) l
  obtain ⟨E, hE⟩ := bounded_of_mem (fun s => s.over d.body H) l
  refine ⟨H, 2 * E + 7, fun cfg i k v vs st st' a hh he => ?_⟩
  obtain ⟨n, x, rfl, h1⟩ := d.parse_inv he
  obtain ⟨r, h2, h3⟩ := (d.unfold n i).inv cfg
    (d.sized (fun j => (d.body j).paced_sized false (hg j)) n i) hh h1
  exact ⟨r, h3, size_of_small (d.small cfg hst hg (fun i => hH _ (hl i)) (fun i => hE _ (hl i)) (Nat.le_refl _) n i) h2⟩

/-- C67 for `decode`: the size of the value is at most linear in the size of the input. -/
theorem C67_decode (s : Schema) (hs : s.sized = true) : ∃ A B, ∀ (cfg : Cfg) (k : Backend) (buf : Bytes) (x : s.Val),
    buf.length ≤ isizeMax → (s.codec cfg).tryDecode cfg k buf = .ok x () → s.size x ≤ A + B * buf.length := by
  refine ⟨s.over .hole 0, 2 * s.over .hole 0 + 7, fun cfg k buf x hb he => ?_⟩
  obtain ⟨r, _, h1, _⟩ := tryDecode_inv hs hb he
  have h2 := (size_of_small (s.small cfg rfl) h1).2
  have h3 := Nat.mul_le_mul_left (2 * s.over .hole 0 + 7) (Nat.sub_le buf.length r.length)
  omega

/-- C67: values can be larger than the input: `String` makes three bytes of text out of each ill-formed byte. -/
theorem C67_grows (cfg : Cfg) (n : Nat) : ∃ x : List Char, (Schema.codec cfg .string).Decodes cfg (List.replicate n 0xff) x [] ∧
    Schema.string.size x = 1 + 3 * n := by
  refine ⟨List.replicate n replacement, Parses.decodes (Schema.parses cfg .string) ?_, ?_⟩
  · exact congrArg (fun a => DecRes.ok a []) (lossy_ff n)
  · show 1 + (utf8 (List.replicate n replacement)).length = _
    congr 1
    induction n with
    | zero => rfl
    | succ n ih =>
      rw [List.replicate_succ, utf8_cons, List.length_append, ih]
      have : (utf8Char replacement).length = 3 := by decide
      omega

theorem upTo_free {α : Type} {d : D α} {a : α} {v : Bytes} (hv : v ≠ []) (h : d v = .ok a v) : ∀ n,
    D.upTo d n v = .ok (List.replicate n a) v
  | 0 => rfl
  | n + 1 => by
    simp only [D.upTo, D.ifEmpty, if_neg hv]
    exact D.bind_eq_ok.mpr ⟨a, v, h, D.bind_eq_ok.mpr ⟨_, v, upTo_free hv h n, rfl⟩⟩

theorem fixSeq_free {α : Type} {d : D α} {a : α} {v : Bytes} (hv : v ≠ []) (h : d v = .ok a v) (n : Nat) :
    Dec.fixSeq n d v = .ok (List.replicate n a) v :=
  D.bind_eq_ok.mpr ⟨_, v, upTo_free hv h n, by rw [if_pos List.length_replicate]; rfl⟩

/-- C67: the constants do depend on the type: `FixSeq<(), N>` makes `N` elements out of nothing. -/
theorem C67_constants (cfg : Cfg) (N : Nat) (v : Bytes) (hv : v ≠ []) : ∃ x : List Unit,
    (Schema.codec cfg (.fixSeq N .unit)).Decodes cfg v x v ∧ (Schema.fixSeq N .unit).size x = 1 + N := by
  refine ⟨List.replicate N (), Parses.decodes (Schema.parses cfg (.fixSeq N .unit)) (fixSeq_free (a := ()) hv rfl N), ?_⟩
  show 1 + ((List.replicate N ()).map fun _ => 1).sum = _
  simp

example : (Schema.record (.cons (.vpadded 4 .string) (.cons (.fixSeq 3 .unit) .nil))).sized = true := rfl

/-- `[1, [2]]`, of size 14: four variants, two lists, three boxes, numbers of one and of two bits. -/
example : (exprs.unfold 3 0).size (.inr (.inr (.inl [.inl (1 : Int), .inr (.inr (.inl [.inl (2 : Int)]))]))) = 14 := by decide +kernel

example : exprs.Stable ∧ exprs.Paced ∧ ∀ i, exprs.body i ∈ [exprs.body 0] :=
  ⟨fun _ => ⟨rfl, rfl⟩, fun _ => rfl, fun _ => List.mem_singleton.mpr rfl⟩

end Verif.Props
