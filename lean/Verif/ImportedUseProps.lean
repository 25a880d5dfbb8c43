import Verif.ImportedNamesProps
import Verif.DuplicatesProps
import Verif.ImportedUse

/-!
# C98: calls of imported functions reach the checked function; imports that pass the checks and cannot be lowered
-/

namespace CairoM.Syntax

/-- **C98.** The function that a call reaches is the one whose type the call is checked against, so it is a function the name
stands for. -/
theorem C98_call_sound (P : Project) {m x k : String} (h : callee P m x = some k) :
    (∃ n, follow P n m x = some (k, .function)) ∧ Means P m x k .function := by
  suffices h' : ∃ n, follow P n m x = some (k, .function) from
    ⟨h', h'.elim fun n hn => (C97_sound P n m x k _ hn).1⟩
  rw [callee] at h
  split at h
  · simp at h
  · rename_i is his
    split at h
    · simp at h
    · rename_i d hd
      split at h
      · rename_i hk
        rw [Option.some.injEq] at h
        subst h
        exact ⟨1, by simp [follow, his, hd, hk]⟩
      · rename_i hk
        split at h
        · simp at h
        · rename_i i hi
          rw [resolveImportedFunction] at h
          split at h
          · simp at h
          · rename_i js hjs
            split at h
            · simp at h
            · rename_i e he
              split at h
              · rename_i hf
                rw [Option.some.injEq] at h
                subst h
                exact ⟨2, by simp [follow, his, hd, hk, hi, hjs, he, hf]⟩
              · simp at h
      · simp at h

/-- A name without two definitions: its latest definition is the only one. -/
theorem latest_only {is : List Item} (hd : Distinct (is.map Item.defines).flatten) {i : Item} {x : String} {kind : DefKind}
    (hi : i ∈ is) (h : Defines i x kind) :
    ∃ d, ((Builder.build is).latest 0 x).bind ((Builder.build is).defs[·]?) = some d ∧ d.kind = kind := by
  cases hl : (Builder.build is).latest 0 x with
  | none => exact absurd ⟨i, hi, h⟩ (Builder.latest_none hl kind)
  | some n =>
    obtain ⟨d, hd', j, hj, hdef⟩ := Builder.latest_some hl
    have := same_item hd hj hi (defines_mem hdef) (defines_mem h)
    subst this
    exact ⟨d, hd', defines_kind hdef h⟩

/-- **C98, in part.** In a crate without names defined twice, a call of a function of the module itself reaches it, and so does a
call of a function that is imported from the module that defines it. Missing: functions imported from a module that
imports them in turn, see `C98_violated_call`. -/
theorem C98_call_partial (P : Project) (hP : (P.map (·.1)).Nodup)
    (hd : ∀ m is, (m, is) ∈ P → Distinct (is.map Item.defines).flatten) {m : String} {is : List Item} (hm : (m, is) ∈ P)
    (f : FunctionDef) :
    (Item.function f ∈ is → callee P m f.name = some m) ∧
    ∀ (m' : String) (js : List Item) (i : Item), (m', js) ∈ P → Item.function f ∈ js → i ∈ is → Asks i m' f.name →
      callee P m f.name = some m' := by
  refine ⟨fun hf => ?_, fun m' js i hm' hf hi ha => ?_⟩
  · obtain ⟨d, h1, h2⟩ := latest_only (hd m is hm) hf (.function f)
    simp [callee, lookup_of_mem hP hm, h1, h2]
  · obtain ⟨d, h1, h2⟩ := latest_only (hd m is hm) hi (asks_defines ha)
    obtain ⟨e, e1, e2⟩ := latest_only (hd m' js hm') hf (.function f)
    cases hfind : (is.flatMap Item.imports).reverse.find? (fun i => i.2 = f.name) with
    | none =>
      have := List.find?_eq_none.mp hfind (m', f.name)
        (List.mem_reverse.mpr (List.mem_flatMap.mpr ⟨i, hi, (imports_iff i _ _).mpr ha⟩))
      simp at this
    | some j =>
      have hmem := List.mem_reverse.mp (List.mem_of_find?_eq_some hfind)
      have hx : j.2 = f.name := by simpa using List.find?_some hfind
      obtain ⟨i', hi', hji⟩ := List.mem_flatMap.mp hmem
      have ha' : Asks i' j.1 f.name := hx ▸ (imports_iff i' _ _).mp hji
      have := same_item (hd m is hm) hi' hi (defines_mem (asks_defines ha')) (defines_mem (asks_defines ha))
      subst this
      have := asks_module ha' ha
      simp [callee, lookup_of_mem hP hm, h1, h2, hfind, resolveImportedFunction, this, lookup_of_mem hP hm', e1, e2]

/-! ### Two crates that pass the checks and cannot be lowered -/

private def fn (x : String) (body : List Stmt) : Item := .function ⟨x, [], .named .felt, body⟩

/-- `main` calls `f`, which it imports from `api`, which imports it from `core`. -/
private def reexported : Project :=
  [("main", [.use ["api"] (.single "f"), fn "main" [.return_ (some (.call (.ident "f") []))]]),
   ("api", [.use ["core"] (.single "f")]),
   ("core", [fn "f" [.return_ (some (.literal 1 none))]])]

/-- `main` returns the constant `N`, which it imports from `core`. -/
private def importedConst : Project :=
  [("main", [.use ["core"] (.single "N"), fn "main" [.return_ (some (.ident "N"))]]),
   ("core", [.const ⟨"N", none, .literal 1 none⟩])]

/-- The crate passes the checks of imports, of names and of names defined twice. -/
def Accepted (P : Project) : Prop :=
  (P.map (·.1)).Nodup ∧ Imports.detectImportCycle (importGraph P) = .ok none ∧
    (∀ m is, (m, is) ∈ P → importReports P is = []) ∧
    (∀ m is, (m, is) ∈ P → duplicates is = [] ∧ (Builder.build is).undeclared = [])

/-- **C98 does not hold for re-exported functions.** The name stands for a function, the checks find it, and the lowering of
the call fails. -/
theorem C98_violated_call : ∃ (P : Project) (x k : String), Accepted P ∧ Means P "main" x k .function ∧
    follow P 3 "main" x = some (k, .function) ∧ callee P "main" x = none := by
  refine ⟨reexported, "f", "core", ⟨by decide +kernel, by decide +kernel, ?_, ?_⟩, ?_, by decide +kernel, by decide +kernel⟩
  · have : ∀ q ∈ reexported, importReports reexported q.2 = [] := by decide +kernel
    exact fun m is h => this _ h
  · have : ∀ q ∈ reexported, duplicates q.2 = [] ∧ (Builder.build q.2).undeclared = [] := by decide +kernel
    exact fun m is h => this _ h
  · exact (C97_sound _ 3 _ _ _ _ (by decide +kernel)).1

/-- A variable that was never written cannot be read. -/
theorem readVar_unwritten {v : Source.Var} {st : Lower.St} (hl : st.locals v = none) (hc : ∀ b, st.cur v b = none) :
    ∀ (n : ℕ) (b : Mir.BlockId), Lower.readVar n v b st = none
  | 0, _ => rfl
  | n + 1, b => by
    have ih := readVar_unwritten hl hc n
    rw [Lower.readVar, hc b]
    have hp : st.newPhi b v = none := by simp [Lower.St.newPhi, hl]
    dsimp only
    split
    · split
      · rw [ih]; rfl
      · rw [hp]; rfl
    · rw [hp]; rfl

/-- **C98 does not hold for imported constants.** The name stands for a constant and the checks accept its use, which they
resolve to the import; but an import is read like a variable, which has never been written, and the compiler panics,
in every state of the lowering. -/
theorem C98_violated_const : ∃ (P : Project) (is : List Item) (x k : String) (i : ℕ) (d : Def), Accepted P ∧ ("main", is) ∈ P ∧
    Means P "main" x k .const ∧ (∃ u ∈ (Builder.build is).uses, u.name = x ∧ u.def_ = some i) ∧
    (Builder.build is).defs[i]? = some d ∧
    ∀ value fuel v st, st.locals v = none → (∀ b, st.cur v b = none) → lowerIdentifier value fuel d.kind v st = none := by
  refine ⟨importedConst, _, "N", "core", 0, ⟨"N", 0, .use⟩, ⟨by decide +kernel, by decide +kernel, ?_, ?_⟩,
    List.mem_cons_self, ?_, by decide +kernel, by decide +kernel, ?_⟩
  · have : ∀ q ∈ importedConst, importReports importedConst q.2 = [] := by decide +kernel
    exact fun m is h => this _ h
  · have : ∀ q ∈ importedConst, duplicates q.2 = [] ∧ (Builder.build q.2).undeclared = [] := by decide +kernel
    exact fun m is h => this _ h
  · exact (C97_sound _ 2 _ _ _ _ (by decide +kernel)).1
  · intro value fuel v st hl hc
    rw [lowerIdentifier, if_neg (by decide)]
    exact readVar_unwritten hl hc fuel _

/-! ### Examples -/

/-- `main` calls a function of its own and one it imports from the module that defines it. -/
private def direct : Project :=
  [("main", [.use ["core"] (.list ["f"]), fn "g" [], fn "main" [.return_ (some (.call (.ident "f") []))]]),
   ("core", [fn "f" [.return_ (some (.literal 1 none))]])]

example : (direct.map (·.1)).Nodup ∧ ∀ q ∈ direct, (q.2.map Item.defines).flatten.Nodup := by decide +kernel
example (v : Source.Var) : Lower.St.initial.locals v = none ∧ ∀ b, Lower.St.initial.cur v b = none := ⟨rfl, fun _ => rfl⟩
example : callee direct "main" "f" = some "core" ∧ callee direct "main" "g" = some "main" := by decide +kernel

end CairoM.Syntax
