import Verif.Storage
import Verif.Props.Sequences
/-
C70: `FixSeq` and `LimSeq` behave alike whether their elements are kept in a `Vec` or in an `ArrayVec`, and the unchecked
writes into the latter are never out of bounds.
-/
namespace Verif.Props

open Storage

variable {α : Type} {size : Nat}

/-- The array of capacity `n` that holds `xs`. -/
def inArray (n : Nat) (xs : List α) : ArrayVec α := ⟨xs.map some ++ List.replicate (n - xs.length) none, xs.length⟩

theorem readSlots_map (xs : List α) (t : List (Option α)) : ArrayVec.readSlots xs.length (xs.map some ++ t) = .val xs := by
  induction xs with
  | nil => rfl
  | cons x xs ih => simp only [List.length_cons, List.map_cons, List.cons_append, ArrayVec.readSlots, ih]

theorem deref_inArray (n : Nat) (xs : List α) : (inArray n xs).deref = .val xs := readSlots_map xs _

theorem deref_array (n : Nat) (xs : List α) : (array α n).deref (inArray n xs) = .val xs := readSlots_map xs _

theorem slots_inArray {n : Nat} {xs : List α} (h : xs.length ≤ n) : (inArray n xs).slots.length = n := by
  simp only [inArray, List.length_append, List.length_map, List.length_replicate]
  omega

theorem inArray_push {n : Nat} {xs : List α} (h : xs.length < n) (x : α) :
    (⟨(inArray n xs).slots.set (inArray n xs).len (some x), (inArray n xs).len + 1⟩ : ArrayVec α) = inArray n (xs ++ [x]) := by
  have hr : List.replicate (n - xs.length) (none : Option α) = none :: List.replicate (n - (xs.length + 1)) none := by
    rw [show n - xs.length = (n - (xs.length + 1)) + 1 by omega]
    rfl
  simp only [inArray, List.length_append, List.length_singleton, List.map_append, List.map_cons, List.map_nil, hr]
  congr 1
  rw [List.set_append_right _ _ (by simp)]
  simp

theorem new_inArray {n : Nat} (hn : n < 2 ^ 32) : ArrayVec.new n = .val (inArray n ([] : List α)) := by
  simp only [ArrayVec.new, if_pos hn, inArray, List.map_nil, List.nil_append, List.length_nil, Nat.sub_zero]

theorem extend_inArray {n : Nat} (ys xs : List α) (h : xs.length + ys.length ≤ n) :
    ArrayVec.extend ys (inArray n xs) = .val (inArray n (xs ++ ys)) := by
  induction ys generalizing xs with
  | nil => simp [ArrayVec.extend]
  | cons y ys ih =>
    rw [List.length_cons] at h
    have hx : xs.length < n := by omega
    have hl : (inArray n xs).len < (inArray n xs).slots.length := by rw [slots_inArray (by omega)]; exact hx
    simp only [ArrayVec.extend]
    rw [if_pos hl, inArray_push hx, ih _ (by simp; omega), List.append_assoc]
    rfl

theorem collect_inArray {n : Nat} (hn : n < 2 ^ 32) {xs : List α} (h : xs.length ≤ n) :
    ArrayVec.collect n xs = .val (inArray n xs) := by
  simp only [ArrayVec.collect, new_inArray hn]
  exact extend_inArray xs [] (by simpa using h)

theorem fromSlice_inArray {n : Nat} (hn : n < 2 ^ 32) {xs : List α} (h : xs.length ≤ n) :
    ArrayVec.tryFromSliceUnwrap n xs = .val (inArray n xs) := by
  rw [ArrayVec.tryFromSliceUnwrap, if_neg (by omega)]
  exact collect_inArray hn h

theorem set_inArray {n : Nat} {xs : List α} (h : xs.length ≤ n) {i : Nat} (hi : i < xs.length) (x : α) :
    ArrayVec.set (inArray n xs) i x = .val (inArray n (xs.set i x)) := by
  have hl : i < (inArray n xs).len := hi
  have hs : i < (inArray n xs).slots.length := by rw [slots_inArray h]; omega
  rw [ArrayVec.set, if_pos hl, if_pos hs]
  simp only [inArray, List.length_set, List.map_set]
  rw [List.set_append_left _ _ (by simpa using hi)]

theorem tryPush_inArray (n : Nat) (xs : List α) (x : α) :
    (array α n).tryPush n (inArray n xs) x = .val ((BoundedSeq.tryPush n xs x).map (inArray n)) ∧
    (vec α size n).tryPush n xs x = .val (BoundedSeq.tryPush n xs x) := by
  have hl : (array α n).len (inArray n xs) = xs.length := rfl
  have hv : (vec α size n).len xs = xs.length := rfl
  unfold Storage.tryPush BoundedSeq.tryPush
  rw [hl, hv]
  by_cases h : xs.length < n
  · simp only [if_pos h]
    have hs : (inArray n xs).len < (inArray n xs).slots.length := by rw [slots_inArray (by omega)]; exact h
    refine ⟨?_, rfl⟩
    show (ArrayVec.pushUnchecked (inArray n xs) x).bind _ = _
    rw [ArrayVec.pushUnchecked, if_pos hs, inArray_push h]
    rfl
  · simp only [if_neg h]
    exact ⟨rfl, trivial⟩

/-- A panic, or a list. -/
def orPanic {β : Type} : Option β → ReadRes β
  | some b => .val b
  | none => .panic

theorem extend_storages (p : Profile) {n : Nat} {xs : List α} (h : xs.length ≤ n) (it : Iter α) :
    (array α n).extendBy p n (inArray n xs) it = orPanic ((BoundedSeq.extend n xs it).map (inArray n)) ∧
    (vec α size n).extendBy p n xs it = orPanic (BoundedSeq.extend n xs it) := by
  have hl : (array α n).len (inArray n xs) = xs.length := rfl
  have hv : (vec α size n).len xs = xs.length := rfl
  have ha : (array α n).isArray = true := rfl
  have hb : (vec α size n).isArray = false := rfl
  unfold Storage.extendBy BoundedSeq.extend
  rw [hl, hv, ha, hb, usub_of_le h, if_neg (Nat.not_lt.mpr h)]
  simp only [if_true, Bool.false_eq_true, if_false, if_pos h]
  cases hi : it.nth (n - xs.length) with
  | mk a it' =>
    cases a with
    | some a => exact ⟨rfl, rfl⟩
    | none =>
      have ht := takeCollect_length (n - xs.length) it'
      have hle : (xs ++ it'.takeCollect (n - xs.length)).length ≤ n := by rw [List.length_append]; omega
      constructor
      · show (ArrayVec.extend (it'.takeCollect (n - xs.length)) (inArray n xs)).bind _ = _
        rw [extend_inArray _ _ (by omega)]
        show (if p = .debug ∧ n < (xs ++ it'.takeCollect (n - xs.length)).length then _ else _) = _
        rw [if_neg (fun hc => absurd hc.2 (Nat.not_lt.mpr hle))]
        rfl
      · show (if p = .debug ∧ n < (xs ++ it'.takeCollect (n - xs.length)).length then _ else _) = _
        rw [if_neg (fun hc => absurd hc.2 (Nat.not_lt.mpr hle))]
        rfl

theorem fromIter_storages (p : Profile) {n : Nat} (hn : n < 2 ^ 32) (it : Iter α) :
    (array α n).fromIter p n it = orPanic ((BoundedSeq.fromIter n it).map (inArray n)) ∧
    (vec α size n).fromIter p n it = orPanic (BoundedSeq.fromIter n it) := by
  unfold Storage.fromIter BoundedSeq.fromIter
  cases hi : it.nth n with
  | mk a it' =>
    cases a with
    | some a => exact ⟨rfl, rfl⟩
    | none =>
      have ht := takeCollect_length n it'
      constructor
      · show (ArrayVec.collect n (it'.takeCollect n)).bind _ = _
        rw [collect_inArray hn ht]
        show (if p = .debug ∧ n < (it'.takeCollect n).length then _ else _) = _
        rw [if_neg (fun hc => absurd hc.2 (Nat.not_lt.mpr ht))]
        rfl
      · show (if p = .debug ∧ n < (it'.takeCollect n).length then _ else _) = _
        rw [if_neg (fun hc => absurd hc.2 (Nat.not_lt.mpr ht))]
        rfl

/-- The answers to a constructor, and what it made. -/
theorem init_storages (p : Profile) {n : Nat} (hn : n < 2 ^ 32) (hv : n * size ≤ isizeMax) (i : Init α) : ∃ a o,
    i.run (vec α size n) p n = .val (a, o) ∧ i.run (array α n) p n = .val (a, o.map (inArray n)) ∧ ∀ xs, o = some xs → xs.length ≤ n := by
  cases i with
  | new =>
    refine ⟨.done, some [], congrArg answer (if_pos hv), ?_, fun xs h => by cases h; exact Nat.zero_le _⟩
    show answer (ArrayVec.new n) = _
    rw [new_inArray hn]
    rfl
  | fromIter it =>
    simp only [Init.run]
    rw [(fromIter_storages (size := size) p hn it).1, (fromIter_storages (size := size) p hn it).2]
    cases h : BoundedSeq.fromIter n it with
    | none => exact ⟨_, none, rfl, rfl, fun xs h => by cases h⟩
    | some xs => exact ⟨_, some xs, rfl, rfl, fun ys h' => by cases h'; exact fromIter_length h⟩
  | fixTryFromSlice xs =>
    simp only [Init.run, Storage.fixTryFromSlice]
    by_cases h : n = xs.length
    · rw [if_neg (fun h' => h' h), if_neg (fun h' => h' h)]
      refine ⟨.done, some xs, rfl, ?_, fun ys h' => by cases h'; omega⟩
      show answerTry ((ArrayVec.tryFromSliceUnwrap n xs).bind _) = _
      rw [fromSlice_inArray hn (by omega)]
      rfl
    · rw [if_pos h, if_pos h]
      exact ⟨_, none, rfl, rfl, fun xs h => by cases h⟩
  | fixTryFromVec xs =>
    simp only [Init.run, Storage.fixTryFromVec]
    by_cases h : n < xs.length
    · rw [if_pos h, if_pos h]
      exact ⟨_, none, rfl, rfl, fun xs h => by cases h⟩
    · rw [if_neg h, if_neg h]
      refine ⟨.done, some xs, rfl, ?_, fun ys h' => by cases h'; omega⟩
      show answerTry ((ArrayVec.collect n xs).bind _) = _
      rw [collect_inArray hn (by omega)]
      rfl
  | limTryFromSlice xs =>
    simp only [Init.run, Storage.limTryFromSlice]
    by_cases h : n < xs.length
    · rw [if_pos h, if_pos h]
      exact ⟨_, none, rfl, rfl, fun xs h => by cases h⟩
    · rw [if_neg h, if_neg h]
      refine ⟨.done, some xs, rfl, ?_, fun ys h' => by cases h'; omega⟩
      show answerTry ((ArrayVec.tryFromSliceUnwrap n xs).bind _) = _
      rw [fromSlice_inArray hn (by omega)]
      rfl
  | limTryFromVec xs =>
    simp only [Init.run, Storage.limTryFromVec]
    by_cases h : n < xs.length
    · rw [if_pos h, if_pos h]
      exact ⟨_, none, rfl, rfl, fun xs h => by cases h⟩
    · rw [if_neg h, if_neg h]
      refine ⟨.done, some xs, rfl, ?_, fun ys h' => by cases h'; omega⟩
      show answerTry ((ArrayVec.collect n xs).bind _) = _
      rw [collect_inArray hn (by omega)]
      rfl
  | limFromVec xs =>
    simp only [Init.run, Storage.limFromVec]
    by_cases h : xs.length ≤ n
    · rw [if_pos h, if_pos h]
      refine ⟨.done, some xs, rfl, ?_, fun ys h' => by cases h'; omega⟩
      show answer (ArrayVec.collect n xs) = _
      rw [collect_inArray hn h]
      rfl
    · rw [if_neg h, if_neg h]
      exact ⟨_, none, rfl, rfl, fun xs h => by cases h⟩

/-- The answer to a mutation, and its effect. -/
theorem op_storages (p : Profile) {n : Nat} {xs : List α} (h : xs.length ≤ n) (op : BoundedSeq.Op α) : ∃ a,
    (vec α size n).opRun p n xs op = .val (a, op.run n xs) ∧ (array α n).opRun p n (inArray n xs) op = .val (a, inArray n (op.run n xs)) := by
  cases op with
  | tryPush x =>
    simp only [Storage.opRun]
    rw [(tryPush_inArray (size := size) n xs x).1, (tryPush_inArray (size := size) n xs x).2]
    simp only [BoundedSeq.Op.run]
    cases BoundedSeq.tryPush n xs x with
    | ok ys => exact ⟨_, rfl, rfl⟩
    | error e => exact ⟨_, rfl, rfl⟩
  | extend it =>
    simp only [Storage.opRun]
    rw [(extend_storages (size := size) p h it).1, (extend_storages (size := size) p h it).2]
    simp only [BoundedSeq.Op.run]
    cases BoundedSeq.extend n xs it with
    | some ys => exact ⟨_, rfl, rfl⟩
    | none => exact ⟨_, rfl, rfl⟩
  | set i x =>
    simp only [Storage.opRun, BoundedSeq.Op.run, BoundedSeq.set]
    by_cases hi : i < xs.length
    · rw [if_pos hi]
      refine ⟨.done, ?_, ?_⟩
      · show (answer (if i < xs.length then ReadRes.val (xs.set i x) else .panic)).bind _ = _
        rw [if_pos hi]
        rfl
      · show (answer (ArrayVec.set (inArray n xs) i x)).bind _ = _
        rw [set_inArray h hi]
        rfl
    · rw [if_neg hi]
      refine ⟨.panicked, ?_, ?_⟩
      · show (answer (if i < xs.length then ReadRes.val (xs.set i x) else .panic)).bind _ = _
        rw [if_neg hi]
        rfl
      · show (answer (ArrayVec.set (inArray n xs) i x)).bind _ = _
        have hl : ¬ i < (inArray n xs).len := hi
        rw [ArrayVec.set, if_neg hl]
        rfl

theorem runOps_storages (p : Profile) {n : Nat} (ops : List (BoundedSeq.Op α)) {xs : List α} (h : xs.length ≤ n) : ∃ rs,
    (vec α size n).runOps p n ops xs = .val rs ∧ (array α n).runOps p n ops (inArray n xs) = .val rs := by
  induction ops generalizing xs with
  | nil => exact ⟨[], rfl, rfl⟩
  | cons op ops ih =>
    obtain ⟨a, h1, h2⟩ := op_storages (size := size) p h op
    obtain ⟨rs, h3, h4⟩ := ih (op_length h op)
    refine ⟨(a, (op.run n xs).length, op.run n xs) :: rs, ?_, ?_⟩
    · simp only [Storage.runOps, h1, ReadRes.bind]
      rw [h3]
      rfl
    · simp only [Storage.runOps, h2, ReadRes.bind]
      rw [h4, deref_array]
      rfl

/-- C70, construction and mutation: whatever a sequence is made from, whatever is done to it and whatever the iterators
answer, callers cannot tell from answers, lengths and contents how the elements are stored; nothing is undefined.  Here
panics are caught, so the outcome is always a value.  (`N` elements fit into memory, as they do where arrays of them exist.) -/
theorem C70_same (p : Profile) {n : Nat} (hn : n < 2 ^ 32) (hv : n * size ≤ isizeMax) (i : Init α) (ops : List (BoundedSeq.Op α)) :
    ∃ r, (array α n).run p n i ops = .val r ∧ (vec α size n).run p n i ops = .val r := by
  obtain ⟨a, o, h1, h2, ho⟩ := init_storages (size := size) p hn hv i
  cases o with
  | none => exact ⟨(a, none), by simp only [Storage.run, h2]; rfl, by simp only [Storage.run, h1]; rfl⟩
  | some xs =>
    obtain ⟨rs, h3, h4⟩ := runOps_storages (size := size) p ops (ho xs rfl)
    refine ⟨(a, some (xs, rs)), ?_, ?_⟩
    · simp only [Storage.run, h2, ReadRes.bind, Option.map_some]
      rw [h4, deref_array]
    · simp only [Storage.run, h1, ReadRes.bind]
      rw [h3]
      rfl

/-! ### decoding -/

section Loop

variable {σ ε β β' γ γ' : Type}

theorem iterN_map {f : β → β'} {g : γ → γ'} {body : β → M σ ε (β ⊕ γ)} {body' : β' → M σ ε (β' ⊕ γ')}
    (h : ∀ b s, body' (f b) s = (Sum.map f g <$> body b) s) : ∀ (n : Nat) (b : β) (s : σ),
    iterN body' n (f b) s = (iterN body n b s).map fun o => o.bind fun a s' => .ok (g a) s'
  | 0, _, _ => rfl
  | n + 1, b, s => by
    simp only [iterN, h, M.map_run]
    cases hb : body b s with
    | ok r s' =>
      cases r with
      | inl b' => exact iterN_map h n b' s'
      | inr a => rfl
    | _ => rfl

theorem iterM_map {f : β → β'} {g : γ → γ'} {body : β → M σ ε (β ⊕ γ)} {body' : β' → M σ ε (β' ⊕ γ')}
    (h : ∀ b s, body' (f b) s = (Sum.map f g <$> body b) s) (b : β) (s : σ) :
    iterM body' (f b) s = (g <$> iterM body b) s := by
  rw [M.map_run]
  by_cases hex : ∃ n o, iterN body n b s = some o
  · obtain ⟨n, o, hn⟩ := hex
    rw [iterM_of_iterN hn]
    exact iterM_of_iterN (by rw [iterN_map h, hn]; rfl)
  · have hnone : ∀ n, iterN body n b s = none := fun n => by
      cases h : iterN body n b s with
      | none => rfl
      | some o => exact absurd ⟨n, o, h⟩ hex
    rw [iterM_eq_diverge hnone, iterM_eq_diverge fun n => by rw [iterN_map h, hnone]; rfl]
    rfl

end Loop

variable {σ : Type}

theorem push_storages (n : Nat) (xs : List α) (x : α) (s : σ) :
    (array α n).push n (inArray n xs) x s = ((inArray n) <$> Codec.tryPush (σ := σ) n xs x) s ∧
    (vec α size n).push n xs x s = Codec.tryPush (σ := σ) n xs x s := by
  simp only [Storage.push, M.bind_run, M.map_run]
  rw [(tryPush_inArray (size := size) n xs x).1, (tryPush_inArray (size := size) n xs x).2]
  simp only [BoundedSeq.tryPush, Codec.tryPush]
  split <;> exact ⟨rfl, rfl⟩

theorem fixBody_storages (n : Nat) (P : ParserOps σ) (parse : PM σ α) (xs : List α) (s : σ) :
    (array α n).fixBody n P parse (inArray n xs) s = (Sum.map (inArray n) (inArray n) <$> Codec.fixBody n P parse xs) s ∧
    (vec α size n).fixBody n P parse xs s = Codec.fixBody n P parse xs s := by
  have hl : (array α n).len (inArray n xs) = xs.length := rfl
  have hv : (vec α size n).len xs = xs.length := rfl
  simp only [Storage.fixBody, Codec.fixBody, M.map_run, M.bind_run, hl, hv]
  cases P.remainder s with
  | ok rem s' =>
    simp only [Out.bind_ok]
    by_cases hc : rem ≠ 0 ∧ xs.length < n
    · simp only [if_pos hc, M.bind_run]
      cases parse s' with
      | ok a s'' =>
        simp only [Out.bind_ok]
        rw [(push_storages (size := size) n xs a s'').1, (push_storages (size := size) n xs a s'').2]
        simp only [M.map_run]
        cases Codec.tryPush (σ := σ) n xs a s'' <;> exact ⟨rfl, trivial⟩
      | _ => exact ⟨rfl, rfl⟩
    · simp only [if_neg hc]
      exact ⟨rfl, trivial⟩
  | _ => exact ⟨rfl, rfl⟩

theorem limBody_storages (n : Nat) (P : ParserOps σ) (parse : PM σ α) (xs : List α) (s : σ) :
    (array α n).limBody n P parse (inArray n xs) s = (Sum.map (inArray n) (inArray n) <$> Codec.limBody n P parse xs) s ∧
    (vec α size n).limBody n P parse xs s = Codec.limBody n P parse xs s := by
  simp only [Storage.limBody, Codec.limBody, M.map_run, M.bind_run]
  cases P.remainder s with
  | ok rem s' =>
    simp only [Out.bind_ok]
    by_cases hc : rem ≠ 0
    · simp only [if_pos hc, M.bind_run]
      cases parse s' with
      | ok a s'' =>
        simp only [Out.bind_ok]
        rw [(push_storages (size := size) n xs a s'').1, (push_storages (size := size) n xs a s'').2]
        simp only [M.map_run]
        cases Codec.tryPush (σ := σ) n xs a s'' <;> exact ⟨rfl, trivial⟩
      | _ => exact ⟨rfl, rfl⟩
    · simp only [if_neg hc]
      exact ⟨rfl, trivial⟩
  | _ => exact ⟨rfl, rfl⟩

/-- What a caller is told about an operation that yields nothing where it panics. -/
def told (xs : List α) : Option (List α) → Answer × List α
  | some ys => (.done, ys)
  | none => (.panicked, xs)

/-- What a caller is told about an operation that may be refused. -/
def toldTry (xs : List α) : Except LengthError (List α) → Answer × List α
  | .ok ys => (.done, ys)
  | .error e => (.refused e, xs)

/-- C70: what both are the same as: each mutation answers as the operation on lists (C26, C27, C42) does, and where it is refused
or panics the contents stay as they were. -/
theorem C70_answers (p : Profile) {n : Nat} {xs : List α} (h : xs.length ≤ n) :
    (∀ x, (vec α size n).opRun p n xs (.tryPush x) = .val (toldTry xs (BoundedSeq.tryPush n xs x))) ∧
    (∀ it, (vec α size n).opRun p n xs (.extend it) = .val (told xs (BoundedSeq.extend n xs it))) ∧
    (∀ i x, (vec α size n).opRun p n xs (.set i x) = .val (told xs (BoundedSeq.set xs i x))) := by
  refine ⟨fun x => ?_, fun it => ?_, fun i x => ?_⟩
  · by_cases hl : xs.length < n <;>
      simp [opRun, answerTry, tryPush, vec, ReadRes.bind, toldTry, BoundedSeq.tryPush, hl]
  · have hl : ¬ n < xs.length := by omega
    simp only [opRun, answer, extendBy, vec, BoundedSeq.extend, if_neg hl, h, if_true, Bool.false_eq_true, if_false]
    cases hn : it.nth (n - xs.length) with
    | mk o it' =>
      cases o with
      | some y => rfl
      | none =>
        have := takeCollect_length (n - xs.length) it'
        have h2 : ¬ (p = .debug ∧ n < xs.length + (it'.takeCollect (n - xs.length)).length) := by omega
        simp [ReadRes.bind, told, h2]
  · by_cases hl : i < xs.length <;>
      simp [opRun, answer, vec, ReadRes.bind, told, BoundedSeq.set, hl]

/-- What a caller is told about a constructor. -/
def made : Option (List α) → Answer × Option (List α)
  | some ys => (.done, some ys)
  | none => (.panicked, none)

def madeTry : Except LengthError (List α) → Answer × Option (List α)
  | .ok ys => (.done, some ys)
  | .error e => (.refused e, none)

/-- C70: so does each constructor, if there is room for what the empty sequence reserves. -/
theorem C70_constructors (p : Profile) (n : Nat) :
    Init.run (vec α size n) p n .new = .val (made (if n * size ≤ isizeMax then some [] else none)) ∧
    (∀ it, Init.run (vec α size n) p n (.fromIter it) = .val (made (BoundedSeq.fromIter n it))) ∧
    (∀ xs, Init.run (vec α size n) p n (.fixTryFromSlice xs) = .val (madeTry (BoundedSeq.fixTryFromSlice n xs))) ∧
    (∀ xs, Init.run (vec α size n) p n (.fixTryFromVec xs) = .val (madeTry (BoundedSeq.fixTryFromVec n xs))) ∧
    (∀ xs, Init.run (vec α size n) p n (.limTryFromSlice xs) = .val (madeTry (BoundedSeq.limTryFrom n xs))) ∧
    (∀ xs, Init.run (vec α size n) p n (.limTryFromVec xs) = .val (madeTry (BoundedSeq.limTryFrom n xs))) ∧
    (∀ xs, Init.run (vec α size n) p n (.limFromVec xs) = .val (made (BoundedSeq.limFromVec n xs))) := by
  refine ⟨?_, fun it => ?_, fun xs => ?_, fun xs => ?_, fun xs => ?_, fun xs => ?_, fun xs => ?_⟩
  · by_cases hl : n * size ≤ isizeMax <;> simp [Init.run, answer, vec, made, hl]
  · simp only [Init.run, answer, fromIter, vec, BoundedSeq.fromIter]
    cases hn : it.nth n with
    | mk o it' =>
      cases o with
      | some y => rfl
      | none =>
        have := takeCollect_length n it'
        have h2 : ¬ (p = .debug ∧ n < (it'.takeCollect n).length) := by omega
        simp [ReadRes.bind, made, h2]
  · by_cases hl : n = xs.length <;>
      simp [Init.run, answerTry, fixTryFromSlice, vec, ReadRes.bind, madeTry, BoundedSeq.fixTryFromSlice, hl]
  · by_cases hl : n < xs.length <;>
      simp [Init.run, answerTry, fixTryFromVec, vec, ReadRes.bind, madeTry, BoundedSeq.fixTryFromVec, hl]
  · by_cases hl : n < xs.length <;>
      simp [Init.run, answerTry, limTryFromSlice, vec, ReadRes.bind, madeTry, BoundedSeq.limTryFrom, hl]
  · by_cases hl : n < xs.length <;>
      simp [Init.run, answerTry, limTryFromVec, limFromVecUnchecked, vec, ReadRes.bind, madeTry, BoundedSeq.limTryFrom, hl]
  · by_cases hl : xs.length ≤ n <;>
      simp [Init.run, answer, limFromVec, limFromVecUnchecked, vec, ReadRes.bind, made, BoundedSeq.limFromVec, hl]

theorem decode_array {n : Nat} (hn : n < 2 ^ 32) (c : Codec α) (P : ParserOps σ) (s : σ) :
    ((array α n).fixParse n P (c.parse P) >>= fun v => lift v.deref) s = (Codec.fixSeq n c).parse P s ∧
    ((array α n).limParse n P (c.parse P) >>= fun v => lift v.deref) s = (Codec.limSeq n c).parse P s := by
  have ha : (array α n).new = .val (inArray n []) := new_inArray hn
  have h1 := iterM_map (f := inArray n) (g := inArray n) (fun xs s => (fixBody_storages (size := 0) n P (c.parse P) xs s).1) []
  have h2 := iterM_map (f := inArray n) (g := inArray n) (fun xs s => (limBody_storages (size := 0) n P (c.parse P) xs s).1) []
  constructor
  · simp only [Storage.fixParse, ha, lift, M.bind_run, M.pure_run, Out.bind_ok, h1, M.map_run, Codec.fixSeq]
    cases iterM (Codec.fixBody n P (c.parse P)) [] s with
    | ok xs s' =>
      simp only [Out.bind_ok]
      show ((if xs.length = n then _ else _ : PM σ (ArrayVec α)) s').bind _ = _
      by_cases hx : xs.length = n
      · rw [if_pos hx, if_pos hx]
        show lift (inArray n xs).deref s' = _
        rw [deref_inArray]
        rfl
      · rw [if_neg hx, if_neg hx]
        rfl
    | _ => rfl
  · simp only [Storage.limParse, ha, lift, M.bind_run, M.pure_run, Out.bind_ok, h2, M.map_run, Codec.limSeq]
    cases iterM (Codec.limBody n P (c.parse P)) [] s with
    | ok xs s' =>
      show lift (inArray n xs).deref s' = _
      rw [deref_inArray]
      rfl
    | _ => rfl

theorem decode_vec {n : Nat} (hz : n * size ≤ isizeMax) (c : Codec α) (P : ParserOps σ) (s : σ) :
    (vec α size n).fixParse n P (c.parse P) s = (Codec.fixSeq n c).parse P s ∧
    (vec α size n).limParse n P (c.parse P) s = (Codec.limSeq n c).parse P s := by
  have ha : (vec α size n).new = .val [] := if_pos hz
  have hv : (vec α size n).fixBody n P (c.parse P) = Codec.fixBody n P (c.parse P) :=
    funext fun xs => funext fun s => (fixBody_storages n P (c.parse P) xs s).2
  have hv' : (vec α size n).limBody n P (c.parse P) = Codec.limBody n P (c.parse P) :=
    funext fun xs => funext fun s => (limBody_storages n P (c.parse P) xs s).2
  constructor
  · simp only [Storage.fixParse, ha, M.bind_run, hv, Codec.fixSeq]
    rfl
  · simp only [Storage.limParse, ha, M.bind_run, hv', Codec.limSeq]
    rfl

/-- C70, decoding: on every parser, whatever the element decoder does, decoding into either storage and reading the contents is
what the models of `FixSeq` and `LimSeq` in Codec/Comb.lean do, which do not mention storage.  In particular nothing is
undefined unless reading an element is. -/
theorem C70_decode {n : Nat} (c : Codec α) (P : ParserOps σ) (s : σ) :
    (n < 2 ^ 32 →
      ((array α n).fixParse n P (c.parse P) >>= fun v => lift v.deref) s = (Codec.fixSeq n c).parse P s ∧
      ((array α n).limParse n P (c.parse P) >>= fun v => lift v.deref) s = (Codec.limSeq n c).parse P s) ∧
    (n * size ≤ isizeMax →
      (vec α size n).fixParse n P (c.parse P) s = (Codec.fixSeq n c).parse P s ∧
      (vec α size n).limParse n P (c.parse P) s = (Codec.limSeq n c).parse P s) :=
  ⟨fun hn => decode_array hn c P s, fun hz => decode_vec hz c P s⟩

/-- C70 is about the guard: writing without it is undefined in a full array. -/
theorem C70_guard (n : Nat) (xs : List α) (h : xs.length = n) (x : α) : ArrayVec.pushUnchecked (inArray n xs) x = .ub := by
  rw [ArrayVec.pushUnchecked, if_neg]
  rw [slots_inArray (by omega)]
  exact Nat.not_lt.mpr (Nat.le_of_eq h.symm)

/-- C70 fails for bounds from `2 ^ 32` on: arrays so large cannot be made, so that decoding panics on every input, and so does
every safe constructor unless it refuses what it is given; with a `Vec` this is not so, if the elements fit into memory. -/
theorem C70_large_fails {n : Nat} (hn : 2 ^ 32 ≤ n) (hz : n * size ≤ isizeMax) (c : Codec α) (P : ParserOps σ) (s : σ) (p : Profile) :
    (array α n).fixParse n P (c.parse P) s = .panic ∧ (array α n).limParse n P (c.parse P) s = .panic ∧
    (Init.new.run (array α n) p n : ReadRes _) = .val (.panicked, none) ∧
    Init.new.run (vec α size n) p n = .val (.done, some []) := by
  have ha : (array α n).new = .panic := if_neg (by omega)
  refine ⟨?_, ?_, ?_, congrArg answer (if_pos hz)⟩
  · simp only [Storage.fixParse, ha]; rfl
  · simp only [Storage.limParse, ha]; rfl
  · simp only [Init.run, ha]; rfl

/-- C70: where `N` elements would take more than `isize::MAX` bytes, a `Vec` for them cannot be reserved: decoding panics on
every input, and so does making an empty sequence; sequences can still be made from elements. -/
theorem C70_room_fails {n : Nat} (hz : isizeMax < n * size) (c : Codec α) (P : ParserOps σ) (s : σ) (p : Profile) :
    (vec α size n).fixParse n P (c.parse P) s = .panic ∧ (vec α size n).limParse n P (c.parse P) s = .panic ∧
    Init.new.run (vec α size n) p n = .val (.panicked, none) ∧
    ∀ xs : List α, xs.length ≤ n → (Init.limFromVec xs).run (vec α size n) p n = .val (.done, some xs) := by
  have ha : (vec α size n).new = .panic := if_neg (Nat.not_le.mpr hz)
  refine ⟨?_, ?_, ?_, fun xs hx => ?_⟩
  · simp only [Storage.fixParse, ha]; rfl
  · simp only [Storage.limParse, ha]; rfl
  · simp only [Init.run, ha]; rfl
  · simp only [Init.run, limFromVec, if_pos hx]; rfl

/-- The hypotheses are met, whatever the width of `usize`: one more byte than can be addressed, and `2 ^ 32` empty elements. -/
example : isizeMax < (isizeMax + 1) * 1 ∧ 2 ^ 32 * 0 ≤ isizeMax ∧ 10 * 8 ≤ isizeMax := by
  refine ⟨by omega, by omega, Nat.le_trans (by decide) isizeMax_ge⟩

/-- C70 does not extend to the unsafe `from_vec_unchecked`: too many elements make an overfull `Vec` but a panic with arrays, as
documented; otherwise both hold what they are given. -/
theorem C70_unchecked {n : Nat} (hn : n < 2 ^ 32) (xs : List α) :
    (vec α size n).limFromVecUnchecked xs = .val xs ∧
    (xs.length ≤ n → ∃ v, (array α n).limFromVecUnchecked xs = .val v ∧ v.deref = .val xs) ∧
    (n < xs.length → (array α n).limFromVecUnchecked xs = .panic) := by
  refine ⟨rfl, fun h => ⟨_, collect_inArray hn h, deref_inArray n xs⟩, fun h => ?_⟩
  have key : ∀ (ys zs : List α), zs.length ≤ n → n < zs.length + ys.length → ArrayVec.extend ys (inArray n zs) = .panic := by
    intro ys
    induction ys with
    | nil => intro zs h1 h2; simp at h2; omega
    | cons y ys ih =>
      intro zs h1 h2
      simp only [ArrayVec.extend]
      have hl : (inArray n zs).len = zs.length := rfl
      rw [slots_inArray h1, hl]
      by_cases hz : zs.length < n
      · rw [if_pos hz]
        have := inArray_push hz y
        rw [hl] at this
        rw [this]
        exact ih _ (by simp; omega) (by simp at h2 ⊢; omega)
      · rw [if_neg hz]
  show ArrayVec.collect n xs = .panic
  simp only [ArrayVec.collect, new_inArray hn]
  exact key xs [] (Nat.zero_le _) (by simpa using h)

/-- A program that fills an array, tries to overfill it and changes an element. -/
example : (array Nat 2).run .release 2 (.limFromVec [7]) [.tryPush 8, .tryPush 9, .set 0 5, .set 2 5, .extend (.ofList [1])] =
    .val (.done, some ([7], [(.done, 2, [7, 8]), (.refused (.tooLong 2 3), 2, [7, 8]), (.done, 2, [5, 8]),
      (.panicked, 2, [5, 8]), (.panicked, 2, [5, 8])])) := by rfl
/-- Without the guard that would have been undefined. -/
example : (array Nat 2).pushUnchecked (inArray 2 [7, 8]) 9 = .ub := C70_guard 2 [7, 8] rfl 9

end Verif.Props
