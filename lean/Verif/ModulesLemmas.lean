import Verif.ModulesSpec
import Mathlib.Data.List.Perm.Basic
import Mathlib.Tactic.Common

/-! # Lemmas on the modules of a project -/

namespace CairoM
namespace Modules

theorem splitName_eq {name stem ext : Component} (h : splitName name = (stem, some ext)) : name = stem ++ '.' :: ext := by
  simp only [splitName] at h
  have ht := List.takeWhile_append_dropWhile (p := fun x : Char => decide (x ≠ '.')) (l := name.reverse)
  split at h
  · simp at h
  · rename_i c before hb
    split at h
    · simp at h
    · simp only [Prod.mk.injEq, Option.some.injEq] at h
      have hc : c = '.' := by
        have h1 := List.head?_dropWhile_not (fun x : Char => decide (x ≠ '.')) name.reverse
        rw [hb] at h1
        simpa using h1
      rw [hb] at ht
      have := congrArg List.reverse ht
      rw [List.reverse_reverse, List.reverse_append, List.reverse_cons, h.1, hc, h.2] at this
      rw [← this]; simp

theorem stripPrefix_append (src rel : Path) : stripPrefix src (src ++ rel) = some rel := by
  induction src with
  | nil => rfl
  | cons c cs ih => simp [stripPrefix, ih]

theorem join_cons_cons (c d : Component) (ds : List Component) : join (c :: d :: ds) = c ++ [':', ':'] ++ join (d :: ds) := rfl

theorem join_concat (ds : List Component) (c : Component) (h : ds ≠ []) : join (ds ++ [c]) = join ds ++ [':', ':'] ++ c := by
  induction ds with
  | nil => exact absurd rfl h
  | cons d ds ih =>
    cases ds with
    | nil => rfl
    | cons e es =>
      rw [List.cons_append, List.cons_append, join_cons_cons, ← List.cons_append, ih (by simp), join_cons_cons]
      simp

theorem moduleName_eq (src dirs : Path) (name : Component) :
    moduleName src (src ++ (dirs ++ [name])) = some (join (dirs ++ [(splitName name).1])) := by
  simp only [moduleName, stripPrefix_append, List.getLast?_append_of_ne_nil dirs (List.cons_ne_nil name []),
    List.getLast?_singleton, List.dropLast_concat]
  split
  · rename_i h; subst h; rfl
  · rename_i h; rw [join_concat dirs _ h]

/-- Names without colons can be read off the joined name. -/
theorem join_inj {a b : List Component} (ha : ∀ c ∈ a, ':' ∉ c) (hb : ∀ c ∈ b, ':' ∉ c) (ha0 : a ≠ []) (hb0 : b ≠ [])
    (h : join a = join b) : a = b := by
  induction a generalizing b with
  | nil => exact absurd rfl ha0
  | cons c cs ih =>
    cases b with
    | nil => exact absurd rfl hb0
    | cons d ds =>
      have hc := ha c (by simp)
      have hd := hb d (by simp)
      have hfirst : ∀ (c : Component) (cs : List Component), ':' ∉ c → (join (c :: cs)).takeWhile (· ≠ ':') = c := by
        intro c cs hc
        have hall : ∀ x ∈ c, (decide (x ≠ ':')) = true := by
          intro x hx; simp only [ne_eq, decide_eq_true_eq]; rintro rfl; exact hc hx
        cases cs with
        | nil => rw [join]; simpa using List.takeWhile_append_of_pos (l₂ := []) hall
        | cons d ds =>
          rw [join_cons_cons, List.append_assoc, List.takeWhile_append_of_pos hall]
          simp
      have hcd : c = d := by rw [← hfirst c cs hc, ← hfirst d ds hd, h]
      subst hcd
      congr 1
      cases cs with
      | nil =>
        cases ds with
        | nil => rfl
        | cons e es =>
          have := congrArg List.length h
          simp [join] at this
      | cons e es =>
        cases ds with
        | nil =>
          have := congrArg List.length h
          simp [join] at this
        | cons f fs =>
          rw [join_cons_cons, join_cons_cons] at h
          exact ih (fun x hx => ha x (by simp [hx])) (fun x hx => hb x (by simp [hx])) (by simp) (by simp)
            (List.append_cancel_left h)

theorem join_qualified (dirs : List Component) (stem : Component) : join (dirs ++ [stem]) = qualified dirs stem := by
  induction dirs with
  | nil => rfl
  | cons d ds ih =>
    have h : join (d :: (ds ++ [stem])) = d ++ [':', ':'] ++ join (ds ++ [stem]) := by
      cases ds <;> rfl
    rw [List.cons_append, h, ih]
    simp [qualified]

/-- A source file below the source directory, without colons in the relative path. -/
def Below (src p : Path) : Prop := ∃ dirs name, p = src ++ (dirs ++ [name]) ∧ ':' ∉ name ∧ ∀ c ∈ dirs, ':' ∉ c

theorem splitName_colon {name : Component} (h : ':' ∉ name) : ':' ∉ (splitName name).1 := by
  intro hm
  apply h
  simp only [splitName] at hm
  split at hm
  · exact hm
  · rename_i c before hb
    split at hm
    · exact hm
    · have h1 : ':' ∈ name.reverse.dropWhile (· ≠ '.') := by rw [hb]; simp [List.mem_reverse.1 hm]
      exact List.mem_reverse.1 ((List.dropWhile_sublist _).subset h1)

theorem isSource_split {dirs src : Path} {name : Component} (h : isSource (src ++ (dirs ++ [name])) = true) :
    (splitName name).2 = some ['c', 'm'] := by
  rw [← List.append_assoc] at h
  simpa [isSource] using h

/-- Different source files have different names. -/
theorem moduleName_inj {src p q : Path} (hp : Below src p) (hq : Below src q) (sp : isSource p = true) (sq : isSource q = true)
    (h : moduleName src p = moduleName src q) : p = q := by
  obtain ⟨d1, n1, rfl, h1, h2⟩ := hp
  obtain ⟨d2, n2, rfl, h3, h4⟩ := hq
  rw [moduleName_eq, moduleName_eq, Option.some.injEq] at h
  have hj := join_inj (fun c hc => by
      simp only [List.mem_append, List.mem_singleton] at hc
      rcases hc with hc | rfl
      · exact h2 c hc
      · exact splitName_colon h1) (fun c hc => by
      simp only [List.mem_append, List.mem_singleton] at hc
      rcases hc with hc | rfl
      · exact h4 c hc
      · exact splitName_colon h3) (by simp) (by simp) h
  obtain ⟨e1, e2⟩ := List.append_inj' hj rfl
  simp only [List.cons.injEq, and_true] at e2
  have f1 := splitName_eq (name := n1) (stem := (splitName n1).1) (ext := ['c', 'm']) (by rw [← isSource_split sp])
  have f2 := splitName_eq (name := n2) (stem := (splitName n2).1) (ext := ['c', 'm']) (by rw [← isSource_split sq])
  rw [e1, f1, f2, e2]

theorem splitName_source (stem : Component) (h : stem ≠ []) : splitName (stem ++ ['.', 'c', 'm']) = (stem, some ['c', 'm']) := by
  have e : (stem ++ ['.', 'c', 'm']).reverse = 'm' :: 'c' :: '.' :: stem.reverse := by simp
  simp only [splitName, e]
  simp [List.dropWhile, List.takeWhile, h]

theorem stem_ne {name stem ext : Component} (h : splitName name = (stem, some ext)) : stem ≠ [] := by
  simp only [splitName] at h
  split at h
  · simp at h
  · split at h
    · simp at h
    · rename_i hb
      simp only [Prod.mk.injEq] at h
      rw [← h.1]; simpa using hb

theorem isSource_path (src dirs : Path) (stem : Component) (h : stem ≠ []) : isSource (sourcePath src dirs stem) = true := by
  simp [isSource, sourcePath, splitName_source stem h]

theorem isSource_inv {src rel : Path} (hs : src.getLast? = some ['s', 'r', 'c']) (h : isSource (src ++ rel) = true) :
    ∃ dirs stem, stem ≠ [] ∧ rel = dirs ++ [stem ++ ['.', 'c', 'm']] := by
  rcases List.eq_nil_or_concat rel with rfl | ⟨dirs, name, rfl⟩
  · rw [List.append_nil, isSource, hs] at h
    exact absurd h (by decide)
  · rw [List.concat_eq_append] at h ⊢
    have h2 := isSource_split h
    have e : splitName name = ((splitName name).1, some ['c', 'm']) := by rw [← h2]
    exact ⟨dirs, (splitName name).1, stem_ne e, by rw [← splitName_eq e]⟩

theorem collect_ok {T : Type} (src : Path) (text : Path → T) (read : Path → Option T) (ps : List Path)
    (hb : ∀ p ∈ ps, Below src p) (hs : ∀ p ∈ ps, isSource p = true) (hr : ∀ p ∈ ps, read p = some (text p)) (hn : ps.Nodup)
    (modules : List (Component × Path × T))
    (hm : ∀ e ∈ modules, moduleName src e.2.1 = some e.1 ∧ Below src e.2.1 ∧ isSource e.2.1 = true ∧ e.2.1 ∉ ps) :
    ∃ more, collect src read ps modules false = (more ++ modules, false) ∧
      (∀ e ∈ more, moduleName src e.2.1 = some e.1) ∧ (more.map Prod.snd).Perm (ps.map fun p => (p, text p)) := by
  induction ps generalizing modules with
  | nil => exact ⟨[], rfl, by simp, by simp⟩
  | cons p ps ih =>
    obtain ⟨dirs, name, rfl, h1, h2⟩ := hb p (by simp)
    simp only [List.nodup_cons] at hn
    have hput : put (join (dirs ++ [(splitName name).1])) (src ++ (dirs ++ [name]), text (src ++ (dirs ++ [name]))) modules =
        (join (dirs ++ [(splitName name).1]), (src ++ (dirs ++ [name]), text (src ++ (dirs ++ [name])))) :: modules := by
      simp only [put]
      congr 1
      rw [List.filter_eq_self]
      intro e he
      simp only [ne_eq, decide_eq_true_eq]
      intro heq
      obtain ⟨g1, g2, g3, g4⟩ := hm e he
      have := moduleName_inj g2 ⟨dirs, name, rfl, h1, h2⟩ g3 (hs _ (by simp)) (by rw [g1, moduleName_eq, heq])
      exact g4 (by simp [this])
    obtain ⟨more, e1, e2, e3⟩ := ih (fun q hq => hb q (by simp [hq])) (fun q hq => hs q (by simp [hq]))
      (fun q hq => hr q (by simp [hq])) hn.2
      ((join (dirs ++ [(splitName name).1]), (src ++ (dirs ++ [name]), text (src ++ (dirs ++ [name])))) :: modules) (by
        intro e he
        simp only [List.mem_cons] at he
        rcases he with rfl | he
        · exact ⟨moduleName_eq src dirs name, ⟨dirs, name, rfl, h1, h2⟩, hs _ (by simp), hn.1⟩
        · obtain ⟨g1, g2, g3, g4⟩ := hm e he
          exact ⟨g1, g2, g3, fun h => g4 (by simp [h])⟩)
    refine ⟨more ++ [(join (dirs ++ [(splitName name).1]), (src ++ (dirs ++ [name]), text (src ++ (dirs ++ [name]))))], ?_, ?_, ?_⟩
    · rw [collect, moduleName_eq]
      simp only [hr _ (List.mem_cons_self)]
      rw [hput, e1]
      simp
    · intro e he
      simp only [List.mem_append, List.mem_singleton] at he
      rcases he with he | rfl
      · exact e2 e he
      · exact moduleName_eq src dirs name
    · rw [List.map_append, List.map_cons, List.map_nil, List.map_cons]
      exact (List.perm_append_singleton _ _).trans (e3.cons _)

end Modules
end CairoM
