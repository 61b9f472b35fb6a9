import Verif.Model.Eval
/-!
# Factoring generated code into its calls and a pure result

Running an expression = running its list of calls left to right, then filling the answers into the expression.
-/

namespace Verif

/-- A call made by generated code. -/
inductive Req where
  | mention (t : Ty) (inline : Bool) (p : ParamsExpr)
  | schema (t : Ty)

/-- The answer of a call. -/
inductive Ans where
  | ref (r : Ref)
  | model (m : Model)

def Req.run (env : Env) (rec : Ty → M Model) : Req → M Ans
  | .mention t inline p, cx =>
    match mentionWith env rec t inline (p.eval env) cx with
    | none => none
    | some (r, cx') => some (.ref r, cx')
  | .schema t, cx =>
    match rec t cx with
    | none => none
    | some (m, cx') => some (.model m, cx')

def runReqs (env : Env) (rec : Ty → M Model) : List Req → M (List Ans)
  | [], cx => some ([], cx)
  | q :: qs, cx =>
    match q.run env rec cx with
    | none => none
    | some (a, cx') =>
      match runReqs env rec qs cx' with
      | none => none
      | some (as, cx'') => some (a :: as, cx'')

mutual
def RefExpr.reqs : RefExpr Ty → List Req
  | .mention t inline p => [.mention t inline p]
  | .inline m => m.reqs
  | .any => []
def ModelExpr.reqs : ModelExpr Ty → List Req
  | .getSchema t => [.schema t]
  | .getSchemaWithParams t _ => [.schema t]
  | .single _ _ td => td.reqs
  | .oneOf _ rs => RefExpr.reqsList rs
  | .tagged m .. => m.reqs
def TypeExpr.reqs : TypeExpr Ty → List Req
  | .string .. => []
  | .number .. => []
  | .integer .. => []
  | .boolean => []
  | .array items => items.reqs
  | .object entries => PropExpr.reqsList entries
  | .dictionary r => r.reqs
def RefExpr.reqsList : List (RefExpr Ty) → List Req
  | [] => []
  | r :: rs => r.reqs ++ RefExpr.reqsList rs
def PropExpr.reqsList : List (PropExpr Ty) → List Req
  | [] => []
  | .mk _ r _ :: rest => r.reqs ++ PropExpr.reqsList rest
end

def popRef : List Ans → Ref × List Ans
  | .ref r :: as => (r, as)
  | as => (.any, as.tail)

def popModel : List Ans → Model × List Ans
  | .model m :: as => (m, as)
  | as => (⟨none, .oneOf []⟩, as.tail)

mutual
/-- Fill the answers into an expression; returns the unused answers. -/
def RefExpr.fill (env : Env) : RefExpr Ty → List Ans → Ref × List Ans
  | .mention .., as => popRef as
  | .inline m, as => (.inline (m.fill env as).1, (m.fill env as).2)
  | .any, as => (.any, as)
def ModelExpr.fill (env : Env) : ModelExpr Ty → List Ans → Model × List Ans
  | .getSchema _, as => popModel as
  | .getSchemaWithParams _ p, as => ((popModel as).1.applyParams (p.eval env), (popModel as).2)
  | .single d n td, as => (⟨d, .single ⟨n, (td.fill env as).1⟩⟩, (td.fill env as).2)
  | .oneOf d rs, as => (⟨d, .oneOf (RefExpr.fillList env rs as).1⟩, (RefExpr.fillList env rs as).2)
  | .tagged m ident tag name nullable, as => (((m.fill env as).1.tryMerge (internalTagModel ident tag name nullable)).2, (m.fill env as).2)
def TypeExpr.fill (env : Env) : TypeExpr Ty → List Ans → TypeDesc × List Ans
  | .string v f e, as => (.string v f (e.map (Example.eval env)), as)
  | .number f e, as => (.number f (e.map (Example.eval env)), as)
  | .integer f e, as => (.integer f (e.map (Example.eval env)), as)
  | .boolean, as => (.boolean, as)
  | .array items, as => (.array (items.fill env as).1, (items.fill env as).2)
  | .object entries, as =>
    let r := PropExpr.fillList env entries [] [] as
    (.object ⟨r.1.1, none, r.1.2⟩, r.2)
  | .dictionary r, as => (.object ⟨[], some (r.fill env as).1, []⟩, (r.fill env as).2)
def RefExpr.fillList (env : Env) : List (RefExpr Ty) → List Ans → List Ref × List Ans
  | [], as => ([], as)
  | r :: rs, as =>
    ((r.fill env as).1 :: (RefExpr.fillList env rs (r.fill env as).2).1,
      (RefExpr.fillList env rs (r.fill env as).2).2)
def PropExpr.fillList (env : Env) : List (PropExpr Ty) → List (String × Ref) → List String → List Ans →
    (List (String × Ref) × List String) × List Ans
  | [], props, req, as => ((props, req), as)
  | .mk name r required :: rest, props, req, as =>
    PropExpr.fillList env rest (BMap.insert name (r.fill env as).1 props)
      (if required then req ++ [name] else req) (r.fill env as).2
end

variable {env : Env} {rec : Ty → M Model}

theorem runReqs_length {qs cx as cx'} (h : runReqs env rec qs cx = some (as, cx')) :
    as.length = qs.length := by
  induction qs generalizing cx as with
  | nil => simp [runReqs] at h; simp [← h.1]
  | cons q qs ih =>
    simp only [runReqs] at h
    split at h
    · cases h
    · split at h
      · cases h
      · rename_i h2; cases h; simp [ih h2]

theorem runReqs_append (qs qs' : List Req) (cx : Components) :
    runReqs env rec (qs ++ qs') cx =
      match runReqs env rec qs cx with
      | none => none
      | some (as, cx') =>
        match runReqs env rec qs' cx' with
        | none => none
        | some (as', cx'') => some (as ++ as', cx'') := by
  induction qs generalizing cx with
  | nil => simp only [List.nil_append, runReqs]; split <;> simp_all
  | cons q qs ih =>
    simp only [List.cons_append, runReqs]
    cases hq : q.run env rec cx with
    | none => simp
    | some p =>
      obtain ⟨a, cx1⟩ := p
      simp only [ih]
      cases runReqs env rec qs cx1 with
      | none => simp
      | some p =>
        obtain ⟨as, cx2⟩ := p
        simp only
        cases runReqs env rec qs' cx2 <;> simp

theorem popRef_append {as rest : List Ans} (h : as.length = 1) :
    popRef (as ++ rest) = ((popRef as).1, rest) ∧ (popRef as).2 = [] := by
  match as, h with
  | [.ref r], _ => simp [popRef]
  | [.model r], _ => simp [popRef]

theorem popModel_append {as rest : List Ans} (h : as.length = 1) :
    popModel (as ++ rest) = ((popModel as).1, rest) ∧ (popModel as).2 = [] := by
  match as, h with
  | [.ref r], _ => simp [popModel]
  | [.model r], _ => simp [popModel]

mutual
theorem RefExpr.fill_append (e : RefExpr Ty) (as rest : List Ans) (h : as.length = e.reqs.length) :
    e.fill env (as ++ rest) = ((e.fill env as).1, rest) := by
  match e, h with
  | .mention .., h => exact (popRef_append (by simpa [RefExpr.reqs] using h)).1
  | .inline m, h =>
    simp only [RefExpr.reqs] at h
    simp [RefExpr.fill, ModelExpr.fill_append m as rest h]
  | .any, h =>
    simp only [RefExpr.reqs, List.length_nil, List.length_eq_zero_iff] at h
    simp [RefExpr.fill, h]
theorem ModelExpr.fill_append (e : ModelExpr Ty) (as rest : List Ans) (h : as.length = e.reqs.length) :
    e.fill env (as ++ rest) = ((e.fill env as).1, rest) := by
  match e, h with
  | .getSchema t, h => exact (popModel_append (by simpa [ModelExpr.reqs] using h)).1
  | .getSchemaWithParams t p, h =>
    simp [ModelExpr.fill, (popModel_append (as := as) (rest := rest) (by simpa [ModelExpr.reqs] using h)).1]
  | .single d n td, h =>
    simp only [ModelExpr.reqs] at h
    simp [ModelExpr.fill, TypeExpr.fill_append td as rest h]
  | .oneOf d rs, h =>
    simp only [ModelExpr.reqs] at h
    simp [ModelExpr.fill, RefExpr.fillList_append rs as rest h]
  | .tagged m _ _ _ _, h =>
    simp only [ModelExpr.reqs] at h
    simp [ModelExpr.fill, ModelExpr.fill_append m as rest h]
theorem TypeExpr.fill_append (e : TypeExpr Ty) (as rest : List Ans) (h : as.length = e.reqs.length) :
    e.fill env (as ++ rest) = ((e.fill env as).1, rest) := by
  match e, h with
  | .string v f e, h =>
    simp only [TypeExpr.reqs, List.length_nil, List.length_eq_zero_iff] at h
    simp [TypeExpr.fill, h]
  | .number f e, h =>
    simp only [TypeExpr.reqs, List.length_nil, List.length_eq_zero_iff] at h
    simp [TypeExpr.fill, h]
  | .integer f e, h =>
    simp only [TypeExpr.reqs, List.length_nil, List.length_eq_zero_iff] at h
    simp [TypeExpr.fill, h]
  | .boolean, h =>
    simp only [TypeExpr.reqs, List.length_nil, List.length_eq_zero_iff] at h
    simp [TypeExpr.fill, h]
  | .array r, h =>
    simp only [TypeExpr.reqs] at h
    simp [TypeExpr.fill, RefExpr.fill_append r as rest h]
  | .object es, h =>
    simp only [TypeExpr.reqs] at h
    simp [TypeExpr.fill, PropExpr.fillList_append es [] [] as rest h]
  | .dictionary r, h =>
    simp only [TypeExpr.reqs] at h
    simp [TypeExpr.fill, RefExpr.fill_append r as rest h]
theorem RefExpr.fillList_append (rs : List (RefExpr Ty)) (as rest : List Ans)
    (h : as.length = (RefExpr.reqsList rs).length) :
    RefExpr.fillList env rs (as ++ rest) = ((RefExpr.fillList env rs as).1, rest) := by
  match rs, h with
  | [], h =>
    simp only [RefExpr.reqsList, List.length_nil, List.length_eq_zero_iff] at h
    simp [RefExpr.fillList, h]
  | r :: rs, h =>
    simp only [RefExpr.reqsList, List.length_append] at h
    have h1 : (as.take r.reqs.length).length = r.reqs.length := by simp; omega
    have h2 : (as.drop r.reqs.length).length = (RefExpr.reqsList rs).length := by simp; omega
    have e1 := RefExpr.fill_append r (as.take r.reqs.length) (as.drop r.reqs.length ++ rest) h1
    have e2 := RefExpr.fill_append r (as.take r.reqs.length) (as.drop r.reqs.length) h1
    rw [← List.append_assoc, List.take_append_drop] at e1
    rw [List.take_append_drop] at e2
    simp [RefExpr.fillList, e1, e2, RefExpr.fillList_append rs _ rest h2]
theorem PropExpr.fillList_append (rs : List (PropExpr Ty)) (props : List (String × Ref)) (req : List String)
    (as rest : List Ans) (h : as.length = (PropExpr.reqsList rs).length) :
    PropExpr.fillList env rs props req (as ++ rest) = ((PropExpr.fillList env rs props req as).1, rest) := by
  match rs, h with
  | [], h =>
    simp only [PropExpr.reqsList, List.length_nil, List.length_eq_zero_iff] at h
    simp [PropExpr.fillList, h]
  | .mk n r q :: rs, h =>
    simp only [PropExpr.reqsList, List.length_append] at h
    have h1 : (as.take r.reqs.length).length = r.reqs.length := by simp; omega
    have h2 : (as.drop r.reqs.length).length = (PropExpr.reqsList rs).length := by simp; omega
    have e1 := RefExpr.fill_append r (as.take r.reqs.length) (as.drop r.reqs.length ++ rest) h1
    have e2 := RefExpr.fill_append r (as.take r.reqs.length) (as.drop r.reqs.length) h1
    rw [← List.append_assoc, List.take_append_drop] at e1
    rw [List.take_append_drop] at e2
    simp [PropExpr.fillList, e1, e2, PropExpr.fillList_append rs _ _ _ rest h2]
end

mutual
theorem RefExpr.eval_eq (e : RefExpr Ty) (cx : Components) :
    e.eval env rec cx =
      match runReqs env rec e.reqs cx with
      | none => none
      | some (as, cx') => some ((e.fill env as).1, cx') := by
  match e with
  | .mention t i p =>
    simp only [RefExpr.eval, RefExpr.reqs, runReqs, Req.run]
    cases mentionWith env rec t i (p.eval env) cx <;> simp [RefExpr.fill, popRef]
  | .inline m =>
    simp only [RefExpr.eval, RefExpr.reqs, ModelExpr.eval_eq m cx]
    cases runReqs env rec m.reqs cx <;> simp [RefExpr.fill]
  | .any => simp [RefExpr.eval, RefExpr.reqs, runReqs, RefExpr.fill]
theorem ModelExpr.eval_eq (e : ModelExpr Ty) (cx : Components) :
    e.eval env rec cx =
      match runReqs env rec e.reqs cx with
      | none => none
      | some (as, cx') => some ((e.fill env as).1, cx') := by
  match e with
  | .getSchema t =>
    simp only [ModelExpr.eval, ModelExpr.reqs, runReqs, Req.run]
    cases rec t cx <;> simp [ModelExpr.fill, popModel]
  | .getSchemaWithParams t p =>
    simp only [ModelExpr.eval, ModelExpr.reqs, runReqs, Req.run]
    cases rec t cx <;> simp [ModelExpr.fill, popModel]
  | .single d n td =>
    simp only [ModelExpr.eval, ModelExpr.reqs, TypeExpr.eval_eq td cx]
    cases runReqs env rec td.reqs cx <;> simp [ModelExpr.fill]
  | .oneOf d rs =>
    simp only [ModelExpr.eval, ModelExpr.reqs, RefExpr.evalList_eq rs cx]
    cases runReqs env rec (RefExpr.reqsList rs) cx <;> simp [ModelExpr.fill]
  | .tagged m _ _ _ _ =>
    simp only [ModelExpr.eval, ModelExpr.reqs, ModelExpr.eval_eq m cx]
    cases runReqs env rec m.reqs cx <;> simp [ModelExpr.fill]
theorem TypeExpr.eval_eq (e : TypeExpr Ty) (cx : Components) :
    e.eval env rec cx =
      match runReqs env rec e.reqs cx with
      | none => none
      | some (as, cx') => some ((e.fill env as).1, cx') := by
  match e with
  | .string .. => simp [TypeExpr.eval, TypeExpr.reqs, runReqs, TypeExpr.fill]
  | .number .. => simp [TypeExpr.eval, TypeExpr.reqs, runReqs, TypeExpr.fill]
  | .integer .. => simp [TypeExpr.eval, TypeExpr.reqs, runReqs, TypeExpr.fill]
  | .boolean => simp [TypeExpr.eval, TypeExpr.reqs, runReqs, TypeExpr.fill]
  | .array r =>
    simp only [TypeExpr.eval, TypeExpr.reqs, RefExpr.eval_eq r cx]
    cases runReqs env rec r.reqs cx <;> simp [TypeExpr.fill]
  | .object es =>
    simp only [TypeExpr.eval, TypeExpr.reqs, PropExpr.evalList_eq es [] [] cx]
    cases runReqs env rec (PropExpr.reqsList es) cx <;> simp [TypeExpr.fill]
  | .dictionary r =>
    simp only [TypeExpr.eval, TypeExpr.reqs, RefExpr.eval_eq r cx]
    cases runReqs env rec r.reqs cx <;> simp [TypeExpr.fill]
theorem RefExpr.evalList_eq (rs : List (RefExpr Ty)) (cx : Components) :
    RefExpr.evalList env rec rs cx =
      match runReqs env rec (RefExpr.reqsList rs) cx with
      | none => none
      | some (as, cx') => some ((RefExpr.fillList env rs as).1, cx') := by
  match rs with
  | [] => simp [RefExpr.evalList, RefExpr.reqsList, runReqs, RefExpr.fillList]
  | r :: rs =>
    simp only [RefExpr.evalList, RefExpr.reqsList, runReqs_append, RefExpr.eval_eq r cx]
    cases h1 : runReqs env rec r.reqs cx with
    | none => simp
    | some p =>
      obtain ⟨as, cx1⟩ := p
      simp only [RefExpr.evalList_eq rs cx1]
      cases h2 : runReqs env rec (RefExpr.reqsList rs) cx1 with
      | none => simp
      | some p =>
        simp [RefExpr.fillList, RefExpr.fill_append r as p.1 (runReqs_length h1)]
theorem PropExpr.evalList_eq (rs : List (PropExpr Ty)) (props : List (String × Ref)) (req : List String)
    (cx : Components) :
    PropExpr.evalList env rec rs props req cx =
      match runReqs env rec (PropExpr.reqsList rs) cx with
      | none => none
      | some (as, cx') => some ((PropExpr.fillList env rs props req as).1, cx') := by
  match rs with
  | [] => simp [PropExpr.evalList, PropExpr.reqsList, runReqs, PropExpr.fillList]
  | .mk n r q :: rs =>
    simp only [PropExpr.evalList, PropExpr.reqsList, runReqs_append, RefExpr.eval_eq r cx]
    cases h1 : runReqs env rec r.reqs cx with
    | none => simp
    | some p =>
      obtain ⟨as, cx1⟩ := p
      simp only [PropExpr.evalList_eq rs _ _ cx1]
      cases h2 : runReqs env rec (PropExpr.reqsList rs) cx1 with
      | none => simp
      | some p =>
        simp [PropExpr.fillList, RefExpr.fill_append r as p.1 (runReqs_length h1)]
end

end Verif
