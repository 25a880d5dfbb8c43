import Verif.Duplicates
import Verif.DuplicatesSpec
import Mathlib.Data.List.Nodup
import Mathlib.Data.List.Count

/-!
# Helper lemmas: the checks for names defined twice
-/

namespace CairoM.Syntax

theorem repeats_count (x : String) : ∀ (xs seen : List String),
    (repeats seen xs).count x = if x ∈ seen then xs.count x else xs.count x - 1
  | [], seen => by simp [repeats]
  | y :: ys, seen => by
    by_cases hy : y ∈ seen
    · rw [repeats, if_pos hy, List.count_cons, List.count_cons, repeats_count x ys seen]
      by_cases hx : x ∈ seen
      · simp [hx]
      · have : y ≠ x := fun h => hx (h ▸ hy)
        simp [hx, this]
    · rw [repeats, if_neg hy, repeats_count x ys (y :: seen), List.count_cons]
      by_cases hxy : y = x
      · subst hxy; simp [hy]
      · have : x ≠ y := fun h => hxy h.symm
        by_cases hx : x ∈ seen <;> simp [hx, hxy, this]

theorem distinct_iff (xs : List String) : Distinct xs ↔ xs.Nodup := by
  rw [List.nodup_iff_getElem?_ne_getElem?]
  constructor
  · intro h i j hij hj he
    obtain ⟨x, hx⟩ : ∃ x, xs[j]? = some x := ⟨_, List.getElem?_eq_getElem hj⟩
    have := h i j x (he.trans hx) hx
    omega
  · intro h i j x hi hj
    have hil := (List.getElem?_eq_some_iff.mp hi).1
    have hjl := (List.getElem?_eq_some_iff.mp hj).1
    rcases Nat.lt_trichotomy i j with hij | hij | hij
    · exact absurd (hi.trans hj.symm) (h i j hij hjl)
    · exact hij
    · exact absurd (hj.trans hi.symm) (h j i hij hil)

theorem repeats_nil (xs : List String) : repeats [] xs = [] ↔ Distinct xs := by
  rw [distinct_iff, List.nodup_iff_count_le_one]
  constructor
  · intro h x
    have := repeats_count x xs []
    simp [h] at this
    omega
  · intro h
    rw [List.eq_nil_iff_forall_not_mem]
    intro x hx
    have hc := List.count_pos_iff.mpr hx
    rw [repeats_count] at hc
    have := h x
    simp at hc
    omega

mutual
theorem binds_mem {path : List Nat} {x : String} : ∀ {p : Pattern}, Binds p path x → x ∈ p.names
  | .ident _, h => by cases h; simp [Pattern.names]
  | .tuple ps, h => by
    cases h with
    | tuple h hp => rw [Pattern.names]; exact binds_memAll h hp
theorem binds_memAll {path : List Nat} {x : String} : ∀ {ps : List Pattern} {i : Nat} {p : Pattern}, ps[i]? = some p →
    Binds p path x → x ∈ Pattern.namesAll ps
  | [], _, _, h, _ => by simp at h
  | p :: ps, 0, q, h, hp => by
    simp at h; subst h
    rw [Pattern.namesAll, List.mem_append]; exact .inl (binds_mem hp)
  | p :: ps, i + 1, q, h, hp => by
    rw [Pattern.namesAll, List.mem_append]; exact .inr (binds_memAll (by simpa using h) hp)
end

mutual
theorem mem_binds {x : String} : ∀ {p : Pattern}, x ∈ p.names → ∃ path, Binds p path x
  | .ident y, h => by simp [Pattern.names] at h; subst h; exact ⟨[], .ident _⟩
  | .tuple ps, h => by
    rw [Pattern.names] at h
    obtain ⟨i, p, path, hi, hp⟩ := mem_bindsAll h
    exact ⟨i :: path, .tuple hi hp⟩
theorem mem_bindsAll {x : String} : ∀ {ps : List Pattern}, x ∈ Pattern.namesAll ps →
    ∃ (i : Nat) (p : Pattern) (path : List Nat), ps[i]? = some p ∧ Binds p path x
  | [], h => by simp [Pattern.namesAll] at h
  | p :: ps, h => by
    rw [Pattern.namesAll, List.mem_append] at h
    rcases h with h | h
    · obtain ⟨path, hp⟩ := mem_binds h
      exact ⟨0, p, path, by simp, hp⟩
    · obtain ⟨i, q, path, hi, hp⟩ := mem_bindsAll h
      exact ⟨i + 1, q, path, by simpa using hi, hp⟩
end

/-- The names of a list of patterns are bound at one place each. -/
def OnceAll (ps : List Pattern) : Prop := Pattern.Once (.tuple ps)

theorem onceAll_cons (p : Pattern) (ps : List Pattern) :
    OnceAll (p :: ps) ↔ p.Once ∧ OnceAll ps ∧ p.names.Disjoint (Pattern.namesAll ps) := by
  constructor
  · intro h
    refine ⟨fun a b x ha hb => ?_, fun a b x ha hb => ?_, fun x hx hy => ?_⟩
    · have := h (0 :: a) (0 :: b) x (.tuple (by simp) ha) (.tuple (by simp) hb)
      simpa using this
    · cases ha with
      | @tuple _ i q a' _ hi ha =>
      cases hb with
      | @tuple _ j r b' _ hj hb =>
      have := h ((i + 1) :: a') ((j + 1) :: b') x (.tuple (by simpa using hi) ha) (.tuple (by simpa using hj) hb)
      simpa using this
    · obtain ⟨a, ha⟩ := mem_binds hx
      obtain ⟨i, q, b, hi, hb⟩ := mem_bindsAll hy
      have := h (0 :: a) ((i + 1) :: b) x (.tuple (by simp) ha) (.tuple (by simpa using hi) hb)
      simp at this
  · rintro ⟨h, hs, hd⟩ a b x ha hb
    cases ha with
    | @tuple _ i q a' _ hi ha =>
    cases hb with
    | @tuple _ j r b' _ hj hb =>
    cases i with
    | zero =>
      simp at hi; subst hi
      cases j with
      | zero => simp at hj; subst hj; simp [h _ _ _ ha hb]
      | succ j => exact absurd (binds_memAll (by simpa using hj) hb) (hd (binds_mem ha))
    | succ i =>
      cases j with
      | zero => simp at hj; subst hj; exact absurd (binds_memAll (by simpa using hi) ha) (hd (binds_mem hb))
      | succ j =>
        have := hs (i :: a') (j :: b') x (.tuple (by simpa using hi) ha) (.tuple (by simpa using hj) hb)
        simpa using this

mutual
theorem once_iff : ∀ (p : Pattern), p.Once ↔ p.names.Nodup
  | .ident x => by
    simp only [Pattern.names, List.nodup_singleton, iff_true]
    intro a b y ha hb
    cases ha; cases hb; rfl
  | .tuple ps => by rw [Pattern.names]; exact onceAll_iff ps
theorem onceAll_iff : ∀ (ps : List Pattern), OnceAll ps ↔ (Pattern.namesAll ps).Nodup
  | [] => by
    simp only [Pattern.namesAll, List.nodup_nil, iff_true]
    intro a b y ha hb
    cases ha with
    | tuple hi _ => simp at hi
  | p :: ps => by rw [onceAll_cons, Pattern.namesAll, List.nodup_append', once_iff p, onceAll_iff ps]
end

theorem patternDuplicates_nil (p : Pattern) : patternDuplicates p = [] ↔ p.Once := by
  rw [patternDuplicates, List.map_eq_nil_iff, repeats_nil, distinct_iff, once_iff]

/-- All patterns inside a statement bind their names once. -/
def Stmt.Once (s : Stmt) : Prop := ∀ p ty e, Inside (.let_ p ty e) s → p.Once

/-- No `for` inside a statement. -/
def Stmt.NoFor (s : Stmt) : Prop := ∀ i c st b, ¬ Inside (.for_ i c st b) s

mutual
theorem stmt_sound : ∀ (s : Stmt), s.Once → s.patternDuplicates = []
  | .let_ p ty e, h => by rw [Stmt.patternDuplicates, patternDuplicates_nil]; exact h p ty e (.self _)
  | .block ss, h => by
    rw [Stmt.patternDuplicates]; exact stmts_sound ss fun s hs p ty e hi => h p ty e (.block hs hi)
  | .if_ c t none, h => by rw [Stmt.patternDuplicates]; exact stmt_sound t fun p ty e hi => h p ty e (.then_ hi)
  | .if_ c t (some e), h => by
    rw [Stmt.patternDuplicates, stmt_sound t fun p ty e hi => h p ty e (.then_ hi),
      stmt_sound e fun p ty e hi => h p ty e (.else_ hi)]
    rfl
  | .loop_ s, h => by rw [Stmt.patternDuplicates]; exact stmt_sound s fun p ty e hi => h p ty e (.loop_ hi)
  | .while_ c s, h => by rw [Stmt.patternDuplicates]; exact stmt_sound s fun p ty e hi => h p ty e (.while_ hi)
  | .const _, _ | .assign .., _ | .return_ _, _ | .expr _, _ | .for_ .., _ | .break_, _ | .continue_, _ => by
    simp [Stmt.patternDuplicates]
theorem stmts_sound : ∀ (ss : List Stmt), (∀ s ∈ ss, s.Once) → Stmt.patternDuplicatesAll ss = []
  | [], _ => by simp [Stmt.patternDuplicatesAll]
  | s :: ss, h => by
    rw [Stmt.patternDuplicatesAll, stmt_sound s (h s (by simp)), stmts_sound ss fun t ht => h t (by simp [ht])]
    rfl
end

mutual
theorem stmt_complete : ∀ (s : Stmt), s.NoFor → s.patternDuplicates = [] → s.Once
  | .let_ p ty e, _, h => by
    rw [Stmt.patternDuplicates, patternDuplicates_nil] at h
    intro q _ _ hi; cases hi; exact h
  | .block ss, hn, h => by
    rw [Stmt.patternDuplicates] at h
    intro p ty e hi
    cases hi with
    | block hs hi => exact stmts_complete ss (fun s hs i c st b hi => hn i c st b (.block hs hi)) h _ hs p ty e hi
  | .if_ c t none, hn, h => by
    rw [Stmt.patternDuplicates] at h
    intro p ty e hi
    cases hi with
    | then_ hi => exact stmt_complete t (fun i c st b hi => hn i c st b (.then_ hi)) h p ty e hi
  | .if_ c t (some e), hn, h => by
    rw [Stmt.patternDuplicates, List.append_eq_nil_iff] at h
    intro p ty v hi
    cases hi with
    | then_ hi => exact stmt_complete t (fun i c st b hi => hn i c st b (.then_ hi)) h.1 p ty v hi
    | else_ hi => exact stmt_complete e (fun i c st b hi => hn i c st b (.else_ hi)) h.2 p ty v hi
  | .loop_ s, hn, h => by
    rw [Stmt.patternDuplicates] at h
    intro p ty e hi
    cases hi with
    | loop_ hi => exact stmt_complete s (fun i c st b hi => hn i c st b (.loop_ hi)) h p ty e hi
  | .while_ c s, hn, h => by
    rw [Stmt.patternDuplicates] at h
    intro p ty e hi
    cases hi with
    | while_ hi => exact stmt_complete s (fun i c st b hi => hn i c st b (.while_ hi)) h p ty e hi
  | .for_ i c st b, hn, _ => absurd (.self _) (hn i c st b)
  | .const _, _, _ | .assign .., _, _ | .return_ _, _, _ | .expr _, _, _ | .break_, _, _ | .continue_, _, _ => by
    intro p ty e hi; cases hi
theorem stmts_complete : ∀ (ss : List Stmt), (∀ s ∈ ss, s.NoFor) → Stmt.patternDuplicatesAll ss = [] → ∀ s ∈ ss, s.Once
  | [], _, _, _, hs => by simp at hs
  | s :: ss, hn, h, t, ht => by
    rw [Stmt.patternDuplicatesAll, List.append_eq_nil_iff] at h
    have hs := stmt_complete s (hn s (by simp)) h.1
    rcases List.mem_cons.mp ht with rfl | ht
    · exact hs
    · exact stmts_complete ss (fun u hu => hn u (by simp [hu])) h.2 t ht
end

namespace Builder

theorem visitType_defs (t : TypeExpr) (b : Builder) : (b.visitType t).defs = b.defs := by
  rw [visitType]
  generalize t.names = xs
  induction xs generalizing b with
  | nil => rfl
  | cons x xs ih => rw [List.foldl_cons, ih]; rfl

theorem visitTypeOpt_defs (ty : Option TypeExpr) (b : Builder) : (b.visitTypeOpt ty).defs = b.defs := by
  cases ty with
  | none => rfl
  | some t => exact visitType_defs t b

mutual
theorem visitExpr_defs (c : Option String) : ∀ (e : Expr) (b : Builder), (visitExpr c e b).defs = b.defs
  | .literal .., b | .boolean _, b | .ident _, b => by simp [visitExpr, addUse]
  | .paren e, b | .unary _ e, b | .member e _, b | .tupleIndex e _, b | .arrayRepeat e _, b | .cast e _, b => by
    rw [visitExpr]; exact visitExpr_defs c e b
  | .binary _ l r, b | .index l r, b => by rw [visitExpr, visitExpr_defs c r, visitExpr_defs c l]
  | .call f args, b => by rw [visitExpr, visitExprs_defs c args, visitExpr_defs c f]
  | .structLit _ fields, b => by rw [visitExpr, visitFields_defs c fields]
  | .tuple es, b | .array es, b => by rw [visitExpr, visitExprs_defs c es]
  | .new t e, b => by rw [visitExpr, visitExpr_defs c e, visitType_defs]
theorem visitExprs_defs (c : Option String) : ∀ (es : List Expr) (b : Builder), (visitExprs c es b).defs = b.defs
  | [], b => by rw [visitExprs]
  | e :: es, b => by rw [visitExprs, visitExprs_defs c es, visitExpr_defs c e]
theorem visitFields_defs (c : Option String) : ∀ (es : List (String × Expr)) (b : Builder), (visitFields c es b).defs = b.defs
  | [], b => by rw [visitFields]
  | (_, e) :: es, b => by rw [visitFields, visitFields_defs c es, visitExpr_defs c e]
end

theorem addAll_defs (k : DefKind) : ∀ (xs : List String) (b : Builder), b.defs ⊆ (b.addAll xs k).defs
  | [], _ => List.Subset.refl _
  | x :: xs, b => List.Subset.trans (List.subset_append_left _ _) (addAll_defs k xs (b.add x k))

theorem visitConst_defs (c : ConstDef) (b : Builder) : b.defs ⊆ (visitConst c b).defs := by
  rw [visitConst, add, visitExpr_defs]; exact List.subset_append_left _ _

mutual
theorem visitStmt_defs : ∀ (s : Stmt) (b : Builder), b.defs ⊆ (visitStmt s b).defs
  | .let_ p ty e, b => by
    rw [visitStmt]
    have := addAll_defs .let_ p.names ((visitExpr none e b).visitTypeOpt ty)
    rwa [visitTypeOpt_defs, visitExpr_defs] at this
  | .const c, b => by rw [visitStmt]; exact visitConst_defs c b
  | .assign l r, b => by rw [visitStmt, visitExpr_defs, visitExpr_defs]; exact List.Subset.refl _
  | .return_ none, b | .break_, b | .continue_, b => by rw [visitStmt]; exact List.Subset.refl _
  | .return_ (some e), b | .expr e, b => by rw [visitStmt, visitExpr_defs]; exact List.Subset.refl _
  | .if_ c t none, b => by
    rw [visitStmt]
    have := visitStmt_defs t (visitExpr none c b).push
    rwa [show (visitExpr none c b).push.defs = b.defs from visitExpr_defs none c b] at this
  | .if_ c t (some e), b => by
    rw [visitStmt]
    have h := visitStmt_defs t (visitExpr none c b).push
    rw [show (visitExpr none c b).push.defs = b.defs from visitExpr_defs none c b] at h
    exact h.trans (visitStmt_defs e (visitStmt t (visitExpr none c b).push).pop.push)
  | .block ss, b => by rw [visitStmt]; exact visitStmts_defs ss b.push
  | .loop_ s, b => by rw [visitStmt]; exact visitStmt_defs s b.push
  | .while_ c s, b => by
    rw [visitStmt]
    have := visitStmt_defs s (visitExpr none c b).push
    rwa [show (visitExpr none c b).push.defs = b.defs from visitExpr_defs none c b] at this
  | .for_ i c st s, b => by
    rw [visitStmt]
    have h₁ := visitStmt_defs i b.push
    have h₂ := visitStmt_defs s (visitExpr none c (visitStmt i b.push))
    rw [visitExpr_defs] at h₂
    exact (h₁.trans h₂).trans (visitStmt_defs st _)
theorem visitStmts_defs : ∀ (ss : List Stmt) (b : Builder), b.defs ⊆ (visitStmts ss b).defs
  | [], b => by rw [visitStmts]; exact List.Subset.refl _
  | s :: ss, b => by rw [visitStmts]; exact (visitStmt_defs s b).trans (visitStmts_defs ss _)
end

theorem visitParams_defs : ∀ (ps : List (String × TypeExpr)) (b : Builder), b.defs ⊆ (b.visitParams ps).defs
  | [], _ => List.Subset.refl _
  | p :: ps, b => by
    have h := visitParams_defs ps ((b.visitType p.2).add p.1 .param)
    have h' : b.defs ⊆ ((b.visitType p.2).add p.1 .param).defs := by
      rw [add, visitType_defs]; exact List.subset_append_left _ _
    exact List.Subset.trans h' h

theorem visitItem_defs (i : Item) (b : Builder) : b.defs ⊆ (visitItem i b).defs := by
  cases i with
  | function f =>
    have h₁ := visitParams_defs f.params (b.push.visitType f.returnType)
    rw [visitType_defs] at h₁
    exact h₁.trans (visitStmts_defs f.body _)
  | struct x fs =>
    rw [visitItem]
    induction fs generalizing b with
    | nil => exact List.Subset.refl _
    | cons f fs ih =>
      have h := ih (b.visitType f.2)
      rw [visitType_defs] at h
      exact h
  | const c => exact visitConst_defs c b
  | use p is => exact List.Subset.refl _

theorem visitItems_defs : ∀ (is : List Item) (b : Builder), b.defs ⊆ (is.foldl (fun b i => visitItem i b) b).defs
  | [], _ => List.Subset.refl _
  | i :: is, b => (visitItem_defs i b).trans (visitItems_defs is (visitItem i b))

theorem declare_defs : ∀ (ds : List (String × DefKind)) (b : Builder) (d : String × DefKind), d ∈ ds →
    ∃ e ∈ (ds.foldl (fun b d => b.add d.1 d.2) b).defs, e.name = d.1 ∧ e.kind = d.2
  | d' :: ds, b, d, hd => by
    have keep : ∀ (ds : List (String × DefKind)) (b : Builder), b.defs ⊆ (ds.foldl (fun b d => b.add d.1 d.2) b).defs := by
      intro ds
      induction ds with
      | nil => intro b; exact List.Subset.refl _
      | cons d ds ih => intro b; exact List.Subset.trans (List.subset_append_left _ _) (ih (b.add d.1 d.2))
    rcases List.mem_cons.mp hd with rfl | hd
    · exact ⟨⟨d.1, b.current, d.2⟩, keep ds (b.add d.1 d.2) (by simp [add]), rfl, rfl⟩
    · exact declare_defs ds (b.add d'.1 d'.2) d hd

/-- What the first pass declares is in the finished index. -/
theorem build_declares (is : List Item) (i : Item) (hi : i ∈ is) (d : String × DefKind) (hd : d ∈ i.declared) :
    ∃ e ∈ (build is).defs, e.name = d.1 ∧ e.kind = d.2 := by
  obtain ⟨e, he, h⟩ := declare_defs (is.flatMap Item.declared) new d (List.mem_flatMap.mpr ⟨i, hi, hd⟩)
  exact ⟨e, visitItems_defs is _ he, h⟩

end Builder

theorem topNames_eq (i : Item) : i.topNames = i.defines := by
  cases i with
  | use p items => cases items <;> rfl
  | _ => rfl

theorem findFunction_mem {is : List Item} {x : String} {f : FunctionDef} (h : findFunction is x = some f) :
    Item.function f ∈ is := by
  obtain ⟨i, hi, h⟩ := List.exists_of_findSome?_eq_some h
  cases i with
  | function g => simp at h; exact h.2 ▸ hi
  | _ => simp at h

theorem findStruct_mem {is : List Item} {x : String} {fs : List (String × TypeExpr)} (h : findStruct is x = some fs) :
    ∃ y, Item.struct y fs ∈ is := by
  obtain ⟨i, hi, h⟩ := List.exists_of_findSome?_eq_some h
  cases i with
  | struct y gs => simp at h; exact ⟨y, h.2 ▸ hi⟩
  | _ => simp at h

theorem findFunction_self : ∀ {is : List Item} {f : FunctionDef}, Item.function f ∈ is →
    (is.flatMap Item.topNames).Nodup → findFunction is f.name = some f
  | i :: is, f, hf, hd => by
    rw [List.flatMap_cons, List.nodup_append'] at hd
    rcases List.mem_cons.mp hf with rfl | hf
    · simp [findFunction]
    · have hm : f.name ∈ is.flatMap Item.topNames := List.mem_flatMap.mpr ⟨_, hf, by simp [Item.topNames]⟩
      have ih := findFunction_self hf hd.2.1
      rw [findFunction] at ih ⊢
      rw [List.findSome?_cons]
      cases i with
      | function g =>
        have : g.name ≠ f.name := fun he => hd.2.2 (by simp [Item.topNames]) (he ▸ hm)
        simp [this, ih]
      | _ => simpa using ih

theorem findStruct_self : ∀ {is : List Item} {x : String} {fs : List (String × TypeExpr)}, Item.struct x fs ∈ is →
    (is.flatMap Item.topNames).Nodup → findStruct is x = some fs
  | i :: is, x, fs, hf, hd => by
    rw [List.flatMap_cons, List.nodup_append'] at hd
    rcases List.mem_cons.mp hf with rfl | hf
    · simp [findStruct]
    · have hm : x ∈ is.flatMap Item.topNames := List.mem_flatMap.mpr ⟨_, hf, by simp [Item.topNames]⟩
      have ih := findStruct_self hf hd.2.1
      rw [findStruct] at ih ⊢
      rw [List.findSome?_cons]
      cases i with
      | struct y gs =>
        have : y ≠ x := fun he => hd.2.2 (by simp [Item.topNames]) (he ▸ hm)
        simp [this, ih]
      | _ => simpa using ih

theorem parameterDuplicates_nil (ps : List (String × TypeExpr)) : parameterDuplicates ps = [] ↔ Distinct (ps.map (·.1)) := by
  rw [parameterDuplicates]
  split
  · rename_i h
    simp only [true_iff]
    intro i j x hi hj
    have hi := (List.getElem?_eq_some_iff.mp hi).1
    have hj := (List.getElem?_eq_some_iff.mp hj).1
    simp only [List.length_map] at hi hj
    omega
  · rw [List.map_eq_nil_iff, repeats_nil]

theorem fieldDuplicates_nil (fs : List (String × TypeExpr)) : fieldDuplicates fs = [] ↔ Distinct (fs.map (·.1)) := by
  rw [fieldDuplicates, List.map_eq_nil_iff, repeats_nil]

theorem topLevelDuplicates_nil (is : List Item) : topLevelDuplicates is = [] ↔ Distinct (is.map Item.defines).flatten := by
  rw [topLevelDuplicates, List.map_eq_nil_iff, repeats_nil, List.flatMap_def, funext topNames_eq]

theorem modulePatternDuplicates_nil (is : List Item) : modulePatternDuplicates is = [] ↔
    ∀ f, Item.function f ∈ is → Stmt.patternDuplicatesAll f.body = [] := by
  rw [modulePatternDuplicates, List.flatMap_eq_nil_iff]
  constructor
  · intro h f hf; exact h _ hf
  · intro h i hi
    cases i with
    | function f => exact h f hi
    | _ => rfl

mutual
theorem not_definition (x : String) : ∀ (s : Stmt), Duplicate.definition x ∉ s.patternDuplicates
  | .let_ p ty e => by simp [Stmt.patternDuplicates, patternDuplicates]
  | .block ss => by rw [Stmt.patternDuplicates]; exact not_definition_all x ss
  | .if_ c t none => by rw [Stmt.patternDuplicates]; exact not_definition x t
  | .if_ c t (some e) => by
    rw [Stmt.patternDuplicates, List.mem_append, not_or]; exact ⟨not_definition x t, not_definition x e⟩
  | .loop_ s | .while_ _ s => by rw [Stmt.patternDuplicates]; exact not_definition x s
  | .const _ | .assign .. | .return_ _ | .expr _ | .for_ .. | .break_ | .continue_ => by simp [Stmt.patternDuplicates]
theorem not_definition_all (x : String) : ∀ (ss : List Stmt), Duplicate.definition x ∉ Stmt.patternDuplicatesAll ss
  | [] => by simp [Stmt.patternDuplicatesAll]
  | s :: ss => by
    rw [Stmt.patternDuplicatesAll, List.mem_append, not_or]; exact ⟨not_definition x s, not_definition_all x ss⟩
end

end CairoM.Syntax
