import Verif.Refine.Lawful
/-
From single operations to operation lists.
-/
namespace Verif

variable {σ : Type} {P : ParserOps σ} {A : σ → Cursor → Prop} {norm : ParseError → ParseError}

/-- Lift step refinement to traces: `ok` holds of all operations when they are performed. -/
theorem trace_of_step {okOp : Cursor → Op → Prop}
    (hstep : ∀ {s c} (op : Op), A s c → okOp c op → StepRefines A norm False (P.run op s) (c.step op)) :
    ∀ (ops : List Op) {s : σ} {c : Cursor}, A s c →
      (∀ (pre : List Op) (op : Op) (post : List Op), ops = pre ++ op :: post → okOp (Cursor.exec pre c) op) →
      (P.trace ops s).map (Res.mapErr norm) = (Cursor.trace ops c).map (Res.mapErr norm)
  | [], _, _, _, _ => rfl
  | op :: ops, s, c, ha, hok => by
    have h := hstep op ha (hok [] op ops rfl)
    have hok' : ∀ (pre : List Op) (op' : Op) (post : List Op), ops = pre ++ op' :: post →
        okOp (Cursor.exec pre (c.step op).2) op' := by
      intro pre op' post he
      exact hok (op :: pre) op' post (by rw [he]; rfl)
    simp only [ParserOps.trace, Cursor.trace]
    revert h hok'
    cases c.step op with
    | mk r c' =>
      cases r with
      | ok o =>
        rintro ⟨s', he, ha'⟩ hok'
        rw [he]
        simp only [List.map_cons]
        rw [trace_of_step hstep ops ha' hok']
      | error e =>
        rintro (⟨e', s', he, hk, ha'⟩ | ⟨hf, _⟩) hok'
        · rw [he]
          simp only [List.map_cons]
          rw [trace_of_step hstep ops ha' hok']
          simp only [Res.mapErr, hk]
        · exact hf.elim

/-- Lift step refinement to the state reached. -/
theorem exec_of_step {okOp : Cursor → Op → Prop} {pan : Op → Prop}
    (hstep : ∀ {s c} (op : Op), A s c → okOp c op → StepRefines A norm (pan op) (P.run op s) (c.step op)) :
    ∀ (ops : List Op) {s s' : σ} {c : Cursor}, A s c →
      (∀ (pre : List Op) (op : Op) (post : List Op), ops = pre ++ op :: post → okOp (Cursor.exec pre c) op) →
      P.exec ops s = some s' → A s' (Cursor.exec ops c)
  | [], _, _, _, ha, _, he => by cases he; exact ha
  | op :: ops, s, s', c, ha, hok, he => by
    have h := hstep op ha (hok [] op ops rfl)
    have hok' : ∀ (pre : List Op) (op' : Op) (post : List Op), ops = pre ++ op' :: post →
        okOp (Cursor.exec pre (c.step op).2) op' := by
      intro pre op' post he
      exact hok (op :: pre) op' post (by rw [he]; rfl)
    simp only [ParserOps.exec, Cursor.exec] at he ⊢
    revert h hok'
    cases c.step op with
    | mk r c' =>
      cases r with
      | ok o =>
        rintro ⟨t, he', ha'⟩ hok'
        rw [he'] at he
        exact exec_of_step hstep ops ha' hok' he
      | error e =>
        rintro (⟨e', t, he', hk, ha'⟩ | ⟨_, he'⟩) hok'
        · rw [he'] at he
          exact exec_of_step hstep ops ha' hok' he
        · rw [he'] at he; cases he

theorem slice_exec {buf : Bytes} {ops : List Op} (hw : (Cursor.start buf).WBs ops) {s : SliceParser}
    (he : SliceParser.ops.exec ops (SliceParser.fromBuffer buf) = some s) :
    SliceRep s (Cursor.exec ops (Cursor.start buf)) :=
  exec_of_step (okOp := fun c op => c.WB op) (pan := fun _ => False)
    (norm := ParseError.kind) (fun op h ho => slice_step h op ho) ops (SliceRep.start buf) hw he

end Verif
