import Verif.MirDeadLemmas
import Mathlib.Data.List.Nodup
import Mathlib.Data.List.Perm.Basic

/-!
# Elimination of phi nodes: helper lemmas about the ordering of copies
-/

namespace CairoM
namespace Lang

open Mir

/-- The value a copy writes, read in `env`. -/
def copyValue (env : Env) (c : Copy) : Option Val := (scalarTy c.ty).bind fun t => readAt env t c.source

/-- Copies that can be ordered: a copy that reads the destination of another one has to come first, and following
this relation never leads back. -/
def Orderable (cs : List Copy) : Prop :=
  ∃ rank : ValueId → ℕ, ∀ c ∈ cs, ∀ d ∈ cs.map Copy.dest, c.source = .Operand d → rank d < rank c.dest

/-- No copy reads the destination of an earlier copy. It may read its own. -/
def InOrder (cs : List Copy) : Prop := cs.Pairwise fun c c' => c'.source ≠ .Operand c.dest

/-- No copy reads a name to which another copy writes a literal. -/
def NoLiteralHazard (cs : List Copy) : Prop :=
  ∀ c ∈ cs, ∀ c' ∈ cs, c.source = .Operand c'.dest → ∃ s, c'.source = .Operand s

/-! ### No cycles -/

theorem mem_copyDeps {cs : List Copy} {d m : ValueId} (h : m ∈ copyDeps cs d) :
    ∃ c ∈ cs, c.dest = d ∧ c.source = .Operand m ∧ m ∈ operandDests cs := by
  simp only [copyDeps, List.mem_filterMap] at h
  obtain ⟨c, hc, h⟩ := h
  split at h
  · rename_i s hs
    split_ifs at h with hcond
    simp only [Option.some.injEq] at h; subst h
    exact ⟨c, hc, hcond.1, hs, hcond.2⟩
  · cases h

theorem mem_operandDests {cs : List Copy} {d : ValueId} : d ∈ operandDests cs ↔ ∃ c ∈ cs, c.dest = d ∧ ∃ s, c.source = .Operand s := by
  simp only [operandDests, List.mem_filterMap]
  constructor
  · rintro ⟨c, hc, h⟩
    split at h
    · rename_i s hs; simp only [Option.some.injEq] at h; exact ⟨c, hc, h, s, hs⟩
    · cases h
  · rintro ⟨c, hc, rfl, s, hs⟩
    exact ⟨c, hc, by rw [hs]⟩

theorem dfs_cycles {graph : ValueId → List ValueId} {rank : ValueId → ℕ}
    (hr : ∀ d, ∀ m ∈ graph d, rank m < rank d) (n : ℕ) (path : List ValueId) (node : ValueId)
    (hp : ∀ p ∈ path, rank node < rank p) (s : Dfs) : (dfs graph n path node s).cycles = s.cycles := by
  induction n generalizing path node s with
  | zero => rfl
  | succ n ih =>
    simp only [dfs]
    have key : ∀ (ms : List ValueId), (∀ m ∈ ms, rank m < rank node) → ∀ s : Dfs,
        (ms.foldl (fun s m =>
          if m ∉ s.visited then dfs graph n (node :: path) m s
          else if m ∈ node :: path then
            { s with cycles := s.cycles ++ [((node :: path).reverse).drop ((node :: path).reverse.idxOf m)] }
          else s) s).cycles = s.cycles := by
      intro ms
      induction ms with
      | nil => intro _ s; rfl
      | cons m ms ihm =>
        intro hms s
        simp only [List.foldl_cons]
        rw [ihm (fun x hx => hms x (by simp [hx]))]
        have hm := hms m (by simp)
        have hpath : ∀ p ∈ node :: path, rank m < rank p := by
          intro p hpp
          rcases List.mem_cons.1 hpp with rfl | hpp
          · exact hm
          · exact lt_trans hm (hp p hpp)
        split_ifs with h1 h2
        · exact absurd (hpath m h2) (lt_irrefl _)
        · rfl
        · exact ih (node :: path) m hpath s
    exact key (graph node) (hr node) _

theorem dfs_visited {graph : ValueId → List ValueId} (n : ℕ) (path : List ValueId) (node : ValueId) (s : Dfs) (v : ValueId)
    (hv : v ∈ s.visited) : v ∈ (dfs graph n path node s).visited := by
  induction n generalizing path node s with
  | zero => exact hv
  | succ n ih =>
    simp only [dfs]
    have key : ∀ (ms : List ValueId) (s : Dfs), v ∈ s.visited → v ∈
        (ms.foldl (fun s m =>
          if m ∉ s.visited then dfs graph n (node :: path) m s
          else if m ∈ node :: path then
            { s with cycles := s.cycles ++ [((node :: path).reverse).drop ((node :: path).reverse.idxOf m)] }
          else s) s).visited := by
      intro ms
      induction ms with
      | nil => intro s hs; exact hs
      | cons m ms ihm =>
        intro s hs
        simp only [List.foldl_cons]
        refine ihm _ ?_
        split_ifs
        · exact hs
        · exact hs
        · exact ih _ _ _ hs
    exact key _ _ (by simp [hv])

theorem findCycles_nil {graph : ValueId → List ValueId} {rank : ValueId → ℕ}
    (hr : ∀ d, ∀ m ∈ graph d, rank m < rank d) (fuel : ℕ) (keys : List ValueId) :
    findCycles graph fuel keys = [] := by
  unfold findCycles
  have key : ∀ (ks : List ValueId) (s : Dfs),
      (ks.foldl (fun s k => if k ∈ s.visited then s else dfs graph fuel [] k s) s).cycles = s.cycles := by
    intro ks
    induction ks with
    | nil => intro s; rfl
    | cons k ks ih =>
      intro s
      simp only [List.foldl_cons]
      rw [ih]
      split_ifs
      · rfl
      · exact dfs_cycles hr fuel [] k (by simp) s
  exact key keys _

theorem dfs_short {graph : ValueId → List ValueId} {rank : ValueId → ℕ}
    (hr : ∀ d, ∀ m ∈ graph d, m = d ∨ rank m < rank d) (n : ℕ) (path : List ValueId) (node : ValueId)
    (hp : ∀ p ∈ path, rank node < rank p) (s : Dfs) (hs : ∀ c ∈ s.cycles, c.length ≤ 1) :
    ∀ c ∈ (dfs graph n path node s).cycles, c.length ≤ 1 := by
  induction n generalizing path node s with
  | zero => exact hs
  | succ n ih =>
    simp only [dfs]
    have key : ∀ (ms : List ValueId), (∀ m ∈ ms, m = node ∨ rank m < rank node) → ∀ s : Dfs, node ∈ s.visited →
        (∀ c ∈ s.cycles, c.length ≤ 1) → ∀ c ∈
        (ms.foldl (fun s m =>
          if m ∉ s.visited then dfs graph n (node :: path) m s
          else if m ∈ node :: path then
            { s with cycles := s.cycles ++ [((node :: path).reverse).drop ((node :: path).reverse.idxOf m)] }
          else s) s).cycles, c.length ≤ 1 := by
      intro ms
      induction ms with
      | nil => intro _ s _ hs; exact hs
      | cons m ms ihm =>
        intro hms s hv hs
        simp only [List.foldl_cons]
        have hm := hms m (by simp)
        refine ihm (fun x hx => hms x (by simp [hx])) _ ?_ ?_
        · split_ifs with h1 h2
          · exact hv
          · exact hv
          · exact dfs_visited n _ _ _ _ hv
        · split_ifs with h1 h2
          · intro c hc
            rcases List.mem_append.1 hc with hc | hc
            · exact hs c hc
            · simp only [List.mem_singleton] at hc
              subst hc
              rcases hm with rfl | hm
              · have hnm : m ∉ path.reverse := fun h => absurd (hp m (by simpa using h)) (lt_irrefl _)
                rw [List.reverse_cons, List.idxOf_append, if_neg hnm]
                simp
              · rcases List.mem_cons.1 h2 with rfl | h2
                · exact absurd hm (lt_irrefl _)
                · exact absurd (lt_trans hm (hp m h2)) (lt_irrefl _)
          · exact hs
          · rcases hm with rfl | hm
            · exact absurd hv h1
            · refine ih (node :: path) m ?_ s hs
              intro p hpp
              rcases List.mem_cons.1 hpp with rfl | hpp
              · exact hm
              · exact lt_trans hm (hp p hpp)
    exact key (graph node) (hr node) _ (by simp) hs

theorem findCycles_short {graph : ValueId → List ValueId} {rank : ValueId → ℕ}
    (hr : ∀ d, ∀ m ∈ graph d, m = d ∨ rank m < rank d) (fuel : ℕ) (keys : List ValueId) :
    ∀ c ∈ findCycles graph fuel keys, c.length ≤ 1 := by
  unfold findCycles
  have key : ∀ (ks : List ValueId) (s : Dfs), (∀ c ∈ s.cycles, c.length ≤ 1) → ∀ c ∈
      (ks.foldl (fun s k => if k ∈ s.visited then s else dfs graph fuel [] k s) s).cycles, c.length ≤ 1 := by
    intro ks
    induction ks with
    | nil => intro s hs; exact hs
    | cons k ks ih =>
      intro s hs
      simp only [List.foldl_cons]
      refine ih _ ?_
      split_ifs
      · exact hs
      · exact dfs_short hr fuel [] k (by simp) s hs
  exact key keys _ (by simp)

theorem breakCycles_short {cs : List Copy} : ∀ {cycles : List (List ValueId)}, (∀ c ∈ cycles, c.length ≤ 1) → ∀ s,
    breakCycles cs cycles s = s
  | [], _, _ => rfl
  | c :: cycles, h, (out, processed, next) => by
    rw [breakCycles, if_pos (h c (by simp))]
    exact breakCycles_short (fun x hx => h x (by simp [hx])) _

/-! ### The order of the copies -/

/-- `c` reads `d`. -/
def reads (d : ValueId) (c : Copy) : Bool := decide (c.source = .Operand d)

/-- Readers of `d` not emitted yet. -/
def readers (cs : List Copy) (done : List ValueId) (d : ValueId) : ℕ :=
  cs.countP fun c => decide (c.dest ∉ done) && reads d c

theorem copyDeps_of {cs : List Copy} (hn : (cs.map Copy.dest).Nodup) {c : Copy} (hc : c ∈ cs) :
    copyDeps cs c.dest = match c.source with
      | .Operand s => if s ∈ operandDests cs then [s] else []
      | _ => [] := by
  have key : ∀ (od : List ValueId) (l : List Copy), (l.map Copy.dest).Nodup → c ∈ l →
      (l.filterMap fun c' => match c'.source with
        | .Operand s => if c'.dest = c.dest ∧ s ∈ od then some s else none
        | _ => none) = match c.source with
          | .Operand s => if s ∈ od then [s] else []
          | _ => [] := by
    intro od l
    induction l with
    | nil => intro _ h; simp at h
    | cons a l ih =>
      intro hnd hm
      simp only [List.map_cons, List.nodup_cons] at hnd
      rcases List.mem_cons.1 hm with rfl | hm
      · have hrest : (l.filterMap fun c' => match c'.source with
            | .Operand s => if c'.dest = c.dest ∧ s ∈ od then some s else none
            | _ => none) = [] := by
          rw [List.filterMap_eq_nil_iff]
          intro x hx
          have : x.dest ≠ c.dest := fun h => hnd.1 (by rw [← h]; exact List.mem_map_of_mem hx)
          split
          · simp [this]
          · rfl
        rw [List.filterMap_cons, hrest]
        cases hs : c.source with
        | Operand s => by_cases hso : s ∈ od <;> simp [hso]
        | Literal _ => rfl
        | Error => rfl
      · have hac : a.dest ≠ c.dest := fun h => hnd.1 (by rw [h]; exact List.mem_map_of_mem hm)
        rw [List.filterMap_cons, ih hnd.2 hm]
        cases hs : a.source <;> simp [hac]
  exact key (operandDests cs) cs hn hc

/-- The graph says exactly which destinations a copy reads. -/
theorem copyDeps_reads {cs : List Copy} (hn : (cs.map Copy.dest).Nodup) (hl : NoLiteralHazard cs) {c : Copy}
    (hc : c ∈ cs) {d : ValueId} (hd : d ∈ cs.map Copy.dest) :
    (copyDeps cs c.dest).count d = if reads d c then 1 else 0 := by
  rw [copyDeps_of hn hc]
  unfold reads
  cases hs : c.source with
  | Literal _ => simp
  | Error => simp
  | Operand s =>
    simp only [Value.Operand.injEq, decide_eq_true_eq]
    by_cases hsd : s = d
    · subst hsd
      obtain ⟨c', hc', hcd⟩ := List.mem_map.1 hd
      obtain ⟨s', hs'⟩ := hl c hc c' hc' (by rw [hs, hcd])
      have : s ∈ operandDests cs := mem_operandDests.2 ⟨c', hc', hcd, s', hs'⟩
      simp [this]
    · by_cases hso : s ∈ operandDests cs
      · simp [hso, hsd]
      · simp [hso, hsd]

theorem inDegree_eq {cs : List Copy} (hn : (cs.map Copy.dest).Nodup) (hl : NoLiteralHazard cs) {d : ValueId}
    (hd : d ∈ cs.map Copy.dest) : inDegree (copyDeps cs) cs d = readers cs [] d := by
  unfold inDegree readers
  have : ∀ l : List Copy, (∀ c ∈ l, c ∈ cs) →
      (l.map fun c => (copyDeps cs c.dest).count d).sum =
        l.countP fun c => decide (c.dest ∉ ([] : List ValueId)) && reads d c := by
    intro l
    induction l with
    | nil => intro _; rfl
    | cons c l ih =>
      intro hm
      simp only [List.map_cons, List.sum_cons]
      rw [ih (fun x hx => hm x (by simp [hx])), copyDeps_reads hn hl (hm c (by simp)) hd, List.countP_cons]
      cases reads d c <;> simp [Nat.add_comm]
  exact this cs (fun _ h => h)

theorem readers_emit {cs : List Copy} (hn : (cs.map Copy.dest).Nodup) {c : Copy} (hc : c ∈ cs)
    {done : List ValueId} (hd : c.dest ∉ done) (d : ValueId) :
    readers cs done d = readers cs (done ++ [c.dest]) d + if reads d c then 1 else 0 := by
  unfold readers
  have hinj : ∀ x ∈ cs, x.dest = c.dest → reads d x = reads d c := fun x hx h => by
    rw [List.inj_on_of_nodup_map hn hx hc h]
  have key : ∀ l : List Copy, (l.map Copy.dest).Nodup → (∀ x ∈ l, x.dest = c.dest → reads d x = reads d c) →
      (l.countP fun x => decide (x.dest ∉ done) && reads d x) =
        (l.countP fun x => decide (x.dest ∉ done ++ [c.dest]) && reads d x) +
          if c.dest ∈ l.map Copy.dest ∧ reads d c then 1 else 0 := by
    intro l
    induction l with
    | nil => intro _ _; simp
    | cons a l ih =>
      intro hnd hin
      simp only [List.map_cons, List.nodup_cons] at hnd
      simp only [List.countP_cons]
      rw [ih hnd.2 (fun x hx => hin x (by simp [hx]))]
      by_cases hac : a.dest = c.dest
      · have hcl : c.dest ∉ l.map Copy.dest := by rw [← hac]; exact hnd.1
        have hr := hin a (by simp) hac
        rw [hr]
        simp only [hcl, List.map_cons, List.mem_cons, hac, true_or, true_and, false_and, if_false, hd,
          not_false_eq_true, decide_true, Bool.true_and, List.mem_append, List.not_mem_nil, or_true, not_true_eq_false,
          decide_false, Bool.false_and, Bool.false_eq_true]
      · have hca : c.dest ≠ a.dest := fun h => hac h.symm
        simp only [List.map_cons, List.mem_cons, List.mem_append, List.not_mem_nil, or_false, hac, hca, false_or]
        omega
  have := key cs hn hinj
  rw [this]
  simp [List.mem_map_of_mem hc]

theorem copyTo_of {cs : List Copy} (hn : (cs.map Copy.dest).Nodup) {c : Copy} (hc : c ∈ cs) :
    copyTo cs c.dest = some c := by
  unfold copyTo
  cases h : cs.reverse.find? fun x => decide (x.dest = c.dest) with
  | none =>
    have := List.find?_eq_none.1 h c (by simpa using hc)
    simp at this
  | some x =>
    have h1 := List.find?_some h
    have h2 := List.mem_of_find?_eq_some h
    rw [List.mem_reverse] at h2
    rw [List.inj_on_of_nodup_map hn h2 hc (by simpa using h1)]

/-- State of the main loop. -/
structure KahnInv (cs : List Copy) (queue : List ValueId) (counts : ValueId → ℕ) (out : List Copy) : Prop where
  sub : ∀ c ∈ out, c ∈ cs
  queue_sub : ∀ d ∈ queue, d ∈ cs.map Copy.dest
  nodup : (out.map Copy.dest ++ queue).Nodup
  counts_eq : ∀ d ∈ cs.map Copy.dest, counts d = readers cs (out.map Copy.dest) d
  zero : ∀ d ∈ cs.map Copy.dest, counts d = 0 ↔ d ∈ out.map Copy.dest ∨ d ∈ queue
  ordered : out.Pairwise fun c c' => c'.source ≠ .Operand c.dest
  selfless : ∀ c ∈ out, ∀ c' ∈ cs, c'.dest ∉ out.map Copy.dest → c'.source ≠ .Operand c.dest

theorem readers_zero {cs : List Copy} {done : List ValueId} {d : ValueId} (h : readers cs done d = 0) :
    ∀ c ∈ cs, c.dest ∉ done → c.source ≠ .Operand d := by
  intro c hc hd hs
  unfold readers at h
  rw [List.countP_eq_zero] at h
  exact h c hc (by simp [hd, reads, hs])

theorem release_of {cs : List Copy} (hn : (cs.map Copy.dest).Nodup) {nodes : List ValueId}
    (hnodes : ∀ d, d ∈ nodes ↔ d ∈ cs.map Copy.dest) {c : Copy} (hc : c ∈ cs) (counts : ValueId → ℕ)
    (queue : List ValueId) :
    (release nodes (copyDeps cs c.dest) counts queue = (counts, queue) ∧
        ∀ d ∈ cs.map Copy.dest, NoLiteralHazard cs → reads d c = false) ∨
      ∃ s ∈ cs.map Copy.dest, c.source = .Operand s ∧
        release nodes (copyDeps cs c.dest) counts queue =
          (Function.update counts s (counts s - 1), if counts s - 1 = 0 then queue ++ [s] else queue) := by
  rw [copyDeps_of hn hc]
  cases hs : c.source with
  | Literal _ => left; exact ⟨rfl, fun d _ _ => by simp [reads, hs]⟩
  | Error => left; exact ⟨rfl, fun d _ _ => by simp [reads, hs]⟩
  | Operand s =>
    by_cases hso : s ∈ operandDests cs
    · right
      obtain ⟨c', hc', hcd, -⟩ := mem_operandDests.1 hso
      have hsn : s ∈ cs.map Copy.dest := List.mem_map.2 ⟨c', hc', hcd⟩
      refine ⟨s, hsn, rfl, ?_⟩
      simp only [hso, if_true, release, (hnodes s).2 hsn]
    · left
      refine ⟨by simp [hso, release], ?_⟩
      intro d hd hl
      by_contra hr
      simp only [reads, hs, Value.Operand.injEq, decide_eq_false_iff_not, not_not] at hr
      subst hr
      obtain ⟨c', hc', hcd⟩ := List.mem_map.1 hd
      obtain ⟨s', hs'⟩ := hl c hc c' hc' (by rw [hs, hcd])
      exact hso (mem_operandDests.2 ⟨c', hc', hcd, s', hs'⟩)

theorem kahnInv_step {cs : List Copy} (hn : (cs.map Copy.dest).Nodup) (hl : NoLiteralHazard cs)
    {nodes : List ValueId} (hnodes : ∀ d, d ∈ nodes ↔ d ∈ cs.map Copy.dest) {v : ValueId} {queue : List ValueId}
    {counts : ValueId → ℕ} {out : List Copy} (h : KahnInv cs (v :: queue) counts out) :
    KahnInv cs (release nodes (copyDeps cs v) counts queue).2 (release nodes (copyDeps cs v) counts queue).1
      (out ++ (copyTo cs v).toList) := by
  obtain ⟨c, hc, rfl⟩ := List.mem_map.1 (h.queue_sub v (by simp))
  rw [copyTo_of hn hc]
  have hnd := h.nodup
  have hcout : c.dest ∉ out.map Copy.dest := by
    rw [List.nodup_append] at hnd
    exact fun hm => hnd.2.2 _ hm _ (by simp) rfl
  have hcq : c.dest ∉ queue := by
    rw [List.nodup_append] at hnd
    exact (List.nodup_cons.1 hnd.2.1).1
  have hz : readers cs (out.map Copy.dest) c.dest = 0 := by
    rw [← h.counts_eq _ (List.mem_map_of_mem hc)]
    exact (h.zero _ (List.mem_map_of_mem hc)).2 (Or.inr (by simp))
  have hnoread := readers_zero hz
  have hmap : (out ++ (some c).toList).map Copy.dest = out.map Copy.dest ++ [c.dest] := by simp
  have hord : (out ++ (some c).toList).Pairwise fun c c' => c'.source ≠ .Operand c.dest := by
    rw [List.pairwise_append]
    refine ⟨h.ordered, by simp, ?_⟩
    intro a ha b hb
    simp only [Option.toList_some, List.mem_singleton] at hb
    subst hb
    exact h.selfless a ha b hc hcout
  have hself' : ∀ x ∈ out ++ (some c).toList, ∀ c' ∈ cs, c'.dest ∉ (out ++ (some c).toList).map Copy.dest →
      c'.source ≠ .Operand x.dest := by
    intro x hx c' hc' hd
    rw [hmap, List.mem_append, not_or] at hd
    rcases List.mem_append.1 hx with hx | hx
    · exact h.selfless x hx c' hc' hd.1
    · simp only [Option.toList_some, List.mem_singleton] at hx
      subst hx
      exact hnoread c' hc' hd.1
  have hsub : ∀ x ∈ out ++ (some c).toList, x ∈ cs := by
    intro x hx
    rcases List.mem_append.1 hx with hx | hx
    · exact h.sub x hx
    · simp only [Option.toList_some, List.mem_singleton] at hx; subst hx; exact hc
  have hnd0 : (out.map Copy.dest ++ [c.dest] ++ queue).Nodup := by simpa using hnd
  rcases release_of hn hnodes hc counts queue with ⟨hr, hnr⟩ | ⟨s, hs, hcs, hr⟩
  · rw [hr]
    refine ⟨hsub, fun d hd => h.queue_sub d (by simp [hd]), by rw [hmap]; exact hnd0, ?_, ?_, hord, hself'⟩
    · intro d hd
      show counts d = _
      rw [hmap, h.counts_eq d hd, readers_emit hn hc hcout d, hnr d hd hl]; simp
    · intro d hd
      show counts d = 0 ↔ _
      rw [hmap]
      simp only [h.zero d hd, List.mem_append, List.mem_cons, List.not_mem_nil, or_false]
      tauto
  · rw [hr]
    have hsc : s ≠ c.dest := fun e => hnoread c hc hcout (by rw [hcs, e])
    have hrs : reads s c = true := by simp [reads, hcs]
    have hpos : counts s = readers cs (out.map Copy.dest ++ [c.dest]) s + 1 := by
      rw [h.counts_eq s hs, readers_emit hn hc hcout s, hrs]; rfl
    have hs_not : s ∉ out.map Copy.dest ∧ s ∉ c.dest :: queue := by
      have := (h.zero s hs).not.1 (by omega)
      tauto
    have hcnt : ∀ d ∈ cs.map Copy.dest, Function.update counts s (counts s - 1) d =
        readers cs (out.map Copy.dest ++ [c.dest]) d := by
      intro d hd
      by_cases hds : d = s
      · subst hds; simp only [Function.update_self]; omega
      · rw [Function.update_of_ne hds, h.counts_eq d hd, readers_emit hn hc hcout d]
        have : reads d c = false := by simp [reads, hcs]; exact fun e => hds e.symm
        rw [this]; simp
    refine ⟨hsub, ?_, ?_, by rw [hmap]; exact hcnt, ?_, hord, hself'⟩
    · intro d hd
      split_ifs at hd with h0
      · rcases List.mem_append.1 hd with hd | hd
        · exact h.queue_sub d (by simp [hd])
        · simp only [List.mem_singleton] at hd; subst hd; exact hs
      · exact h.queue_sub d (by simp [hd])
    · rw [hmap]
      split_ifs with h0
      · rw [← List.append_assoc, List.nodup_append]
        refine ⟨hnd0, by simp, ?_⟩
        intro a ha b hb hab
        simp only [List.mem_singleton] at hb
        subst hb; subst hab
        simp only [List.mem_append, List.mem_singleton] at ha
        rcases ha with (ha | ha) | ha
        · exact hs_not.1 ha
        · exact hsc ha
        · exact hs_not.2 (by simp [ha])
      · exact hnd0
    · intro d hd
      show Function.update counts s (counts s - 1) d = 0 ↔
        _ ∨ d ∈ if counts s - 1 = 0 then queue ++ [s] else queue
      rw [hmap]
      by_cases hds : d = s
      · subst hds
        simp only [Function.update_self]
        split_ifs with h0
        · simp [h0]
        · simp only [h0, List.mem_append, List.mem_singleton, hsc, false_iff, not_or]
          exact ⟨⟨hs_not.1, not_false⟩, fun hq => hs_not.2 (by simp [hq])⟩
      · rw [Function.update_of_ne hds, h.zero d hd]
        split_ifs with h0
        · simp only [List.mem_append, List.mem_cons, List.not_mem_nil, or_false, hds]; tauto
        · simp only [List.mem_append, List.mem_cons, List.not_mem_nil, or_false]; tauto

/-- Some copy can be emitted as long as there is one left. -/
theorem kahnInv_done {cs : List Copy} {counts : ValueId → ℕ} {out : List Copy}
    (h : KahnInv cs [] counts out) {rank : ValueId → ℕ}
    (hr : ∀ c ∈ cs, ∀ d ∈ cs.map Copy.dest, c.source = .Operand d → rank d < rank c.dest) :
    ∀ d ∈ cs.map Copy.dest, d ∈ out.map Copy.dest := by
  -- otherwise the ranks of the remaining destinations are unbounded
  have hbound : ∃ B, ∀ d ∈ cs.map Copy.dest, rank d ≤ B :=
    ⟨((cs.map Copy.dest).map rank).sum, fun d hd => List.single_le_sum (by simp) _ (List.mem_map_of_mem hd)⟩
  obtain ⟨B, hB⟩ := hbound
  have key : ∀ k, ∀ d ∈ cs.map Copy.dest, B - rank d ≤ k → d ∈ out.map Copy.dest := by
    intro k
    induction k with
    | zero =>
      intro d hd hk
      by_contra hno
      have h1 := (h.zero d hd).not.2 (by simp [hno])
      rw [h.counts_eq d hd] at h1
      obtain ⟨c, hc, h2⟩ := List.countP_pos_iff.1 (Nat.pos_of_ne_zero h1)
      simp only [Bool.and_eq_true, reads, decide_eq_true_eq] at h2
      have := hr c hc d hd h2.2
      have := hB _ (List.mem_map_of_mem hc)
      omega
    | succ k ih =>
      intro d hd hk
      by_contra hno
      have h1 := (h.zero d hd).not.2 (by simp [hno])
      rw [h.counts_eq d hd] at h1
      obtain ⟨c, hc, h2⟩ := List.countP_pos_iff.1 (Nat.pos_of_ne_zero h1)
      simp only [Bool.and_eq_true, reads, decide_eq_true_eq] at h2
      have h3 := hr c hc d hd h2.2
      have h4 := hB _ (List.mem_map_of_mem hc)
      exact h2.1 (ih c.dest (List.mem_map_of_mem hc) (by omega))
  exact fun d hd => key _ d hd le_rfl

theorem kahn_spec {cs : List Copy} (hn : (cs.map Copy.dest).Nodup) (hl : NoLiteralHazard cs)
    {rank : ValueId → ℕ}
    (hr : ∀ c ∈ cs, ∀ d ∈ cs.map Copy.dest, c.source = .Operand d → rank d < rank c.dest)
    {nodes : List ValueId} (hnodes : ∀ d, d ∈ nodes ↔ d ∈ cs.map Copy.dest) (n : ℕ) {queue : List ValueId}
    {counts : ValueId → ℕ} {out : List Copy} (h : KahnInv cs queue counts out)
    (hlen : cs.length < n + out.length) :
    (kahn (copyDeps cs) cs nodes n queue counts out).Perm cs ∧
      (kahn (copyDeps cs) cs nodes n queue counts out).Pairwise fun c c' => c'.source ≠ .Operand c.dest := by
  induction n generalizing queue counts out with
  | zero =>
    exfalso
    have h1 : (out.map Copy.dest).Nodup := (List.nodup_append.1 h.nodup).1
    have h2 : out.Nodup := List.Nodup.of_map _ h1
    have := (List.subperm_of_subset h2 (fun c hc => h.sub c hc)).length_le
    omega
  | succ n ih =>
    cases queue with
    | nil =>
      refine ⟨?_, h.ordered⟩
      have h1 : (out.map Copy.dest).Nodup := (List.nodup_append.1 h.nodup).1
      have h2 : out.Nodup := List.Nodup.of_map _ h1
      refine (List.subperm_of_subset h2 (fun c hc => h.sub c hc)).antisymm
        (List.subperm_of_subset (List.Nodup.of_map _ hn) ?_)
      intro c hc
      obtain ⟨c', hc', hcd⟩ := List.mem_map.1 (kahnInv_done h hr _ (List.mem_map_of_mem hc))
      rw [← List.inj_on_of_nodup_map hn (h.sub c' hc') hc hcd]
      exact hc'
    | cons v queue =>
      obtain ⟨c, hc, rfl⟩ := List.mem_map.1 (h.queue_sub v (by simp))
      have hstep := kahnInv_step hn hl hnodes h
      simp only [kahn]
      refine ih hstep ?_
      rw [copyTo_of hn hc]
      simp only [Option.toList_some, List.length_append, List.length_singleton]
      omega

theorem topoSort_spec {order : List ValueId → List ValueId} (ho : ∀ l, (order l).Perm l) {cs : List Copy}
    (hn : (cs.map Copy.dest).Nodup) (hl : NoLiteralHazard cs) (hr : Orderable cs) :
    (topoSort order (copyDeps cs) cs).Perm cs ∧
      (topoSort order (copyDeps cs) cs).Pairwise fun c c' => c'.source ≠ .Operand c.dest := by
  obtain ⟨rank, hr⟩ := hr
  have hdd : (cs.map Copy.dest).dedup = cs.map Copy.dest := List.Nodup.dedup hn
  have hperm := ho ((cs.map Copy.dest).dedup)
  have hnodes : ∀ d, d ∈ order ((cs.map Copy.dest).dedup) ↔ d ∈ cs.map Copy.dest := by
    intro d; rw [hperm.mem_iff, hdd]
  have hnnd : (order ((cs.map Copy.dest).dedup)).Nodup := hperm.nodup_iff.2 (by rw [hdd]; exact hn)
  have hlen : (order ((cs.map Copy.dest).dedup)).length = cs.length := by
    rw [hperm.length_eq, hdd, List.length_map]
  have hinv : KahnInv cs ((order ((cs.map Copy.dest).dedup)).filter fun d => decide (inDegree (copyDeps cs) cs d = 0))
      (inDegree (copyDeps cs) cs) [] := by
    refine ⟨by simp, ?_, ?_, ?_, ?_, .nil, by simp⟩
    · intro d hd; exact (hnodes d).1 (List.mem_of_mem_filter hd)
    · simpa using hnnd.filter _
    · intro d hd; exact inDegree_eq hn hl hd
    · intro d hd
      simp only [List.map_nil, List.not_mem_nil, false_or, List.mem_filter, decide_eq_true_eq, hnodes d, hd, true_and]
  have := kahn_spec hn hl hr hnodes ((order ((cs.map Copy.dest).dedup)).length + 1) hinv (by
    rw [hlen]; simp)
  unfold topoSort
  simp only
  rw [if_pos this.1.length_eq]
  exact this

/-- The main loop never emits a copy that reads its own destination. -/
theorem kahn_self {cs : List Copy} (hn : (cs.map Copy.dest).Nodup) (hl : NoLiteralHazard cs)
    {nodes : List ValueId} (hnodes : ∀ d, d ∈ nodes ↔ d ∈ cs.map Copy.dest) (n : ℕ) {queue : List ValueId}
    {counts : ValueId → ℕ} {out : List Copy} (h : KahnInv cs queue counts out)
    (hout : ∀ c ∈ out, c.source ≠ .Operand c.dest) :
    (∀ c ∈ kahn (copyDeps cs) cs nodes n queue counts out, c ∈ cs ∧ c.source ≠ .Operand c.dest) ∧
      (kahn (copyDeps cs) cs nodes n queue counts out).Nodup := by
  have hnd : ∀ {queue : List ValueId} {counts : ValueId → ℕ} {out : List Copy}, KahnInv cs queue counts out → out.Nodup :=
    fun h => List.Nodup.of_map _ (List.nodup_append.1 h.nodup).1
  induction n generalizing queue counts out with
  | zero => exact ⟨fun c hc => ⟨h.sub c hc, hout c hc⟩, hnd h⟩
  | succ n ih =>
    cases queue with
    | nil => exact ⟨fun c hc => ⟨h.sub c hc, hout c hc⟩, hnd h⟩
    | cons v queue =>
      obtain ⟨c, hc, rfl⟩ := List.mem_map.1 (h.queue_sub v (by simp))
      have hstep := kahnInv_step hn hl hnodes h
      simp only [kahn]
      refine ih hstep ?_
      rw [copyTo_of hn hc]
      intro x hx
      rcases List.mem_append.1 hx with hx | hx
      · exact hout x hx
      · simp only [Option.toList_some, List.mem_singleton] at hx
        subst hx
        have hcout : x.dest ∉ out.map Copy.dest := fun hm => (List.nodup_append.1 h.nodup).2.2 _ hm _ (by simp) rfl
        refine readers_zero ?_ x hc hcout
        rw [← h.counts_eq _ (List.mem_map_of_mem hc)]
        exact (h.zero _ (List.mem_map_of_mem hc)).2 (Or.inr (by simp))

theorem kahnInv_init {order : List ValueId → List ValueId} (ho : ∀ l, (order l).Perm l) {cs : List Copy}
    (hn : (cs.map Copy.dest).Nodup) (hl : NoLiteralHazard cs) :
    (∀ d, d ∈ order ((cs.map Copy.dest).dedup) ↔ d ∈ cs.map Copy.dest) ∧
    KahnInv cs ((order ((cs.map Copy.dest).dedup)).filter fun d => decide (inDegree (copyDeps cs) cs d = 0))
      (inDegree (copyDeps cs) cs) [] := by
  have hdd : (cs.map Copy.dest).dedup = cs.map Copy.dest := List.Nodup.dedup hn
  have hperm := ho ((cs.map Copy.dest).dedup)
  have hnodes : ∀ d, d ∈ order ((cs.map Copy.dest).dedup) ↔ d ∈ cs.map Copy.dest := by
    intro d; rw [hperm.mem_iff, hdd]
  have hnnd : (order ((cs.map Copy.dest).dedup)).Nodup := hperm.nodup_iff.2 (by rw [hdd]; exact hn)
  refine ⟨hnodes, by simp, ?_, ?_, ?_, ?_, .nil, by simp⟩
  · intro d hd; exact (hnodes d).1 (List.mem_of_mem_filter hd)
  · simpa using hnnd.filter _
  · intro d hd; exact inDegree_eq hn hl hd
  · intro d hd
    simp only [List.map_nil, List.not_mem_nil, false_or, List.mem_filter, decide_eq_true_eq, hnodes d, hd, true_and]

/-- With a copy that reads its own destination the ordering gives up. -/
theorem topoSort_self {order : List ValueId → List ValueId} (ho : ∀ l, (order l).Perm l) {cs : List Copy}
    (hn : (cs.map Copy.dest).Nodup) (hl : NoLiteralHazard cs) {c : Copy} (hc : c ∈ cs) (hs : c.source = .Operand c.dest) :
    topoSort order (copyDeps cs) cs = cs := by
  obtain ⟨hnodes, hinv⟩ := kahnInv_init ho hn hl
  obtain ⟨h1, h2⟩ := kahn_self hn hl hnodes ((order ((cs.map Copy.dest).dedup)).length + 1) hinv (by simp)
  unfold topoSort
  simp only
  rw [if_neg]
  intro hlen
  have hp := (List.subperm_of_subset h2 fun x hx => (h1 x hx).1).perm_of_length_le (by rw [hlen])
  exact (h1 c (hp.mem_iff.2 hc)).2 hs

/-- Copies in order: the position of a destination is a rank. -/
theorem InOrder.rank {cs : List Copy} (hn : (cs.map Copy.dest).Nodup) (h : InOrder cs) :
    ∃ rank : ValueId → ℕ, ∀ c ∈ cs, ∀ d ∈ cs.map Copy.dest, c.source = .Operand d → d = c.dest ∨ rank d < rank c.dest := by
  refine ⟨fun v => cs.length - (cs.map Copy.dest).idxOf v, fun c hc d hd hs => ?_⟩
  obtain ⟨i, hi, rfl⟩ := List.getElem_of_mem hc
  obtain ⟨j, hj, rfl⟩ := List.getElem_of_mem hd
  have hj' : j < cs.length := by simpa using hj
  rcases lt_trichotomy j i with hji | hji | hji
  · exact absurd (by simpa using hs) (List.pairwise_iff_getElem.1 h j i hj' hi hji)
  · subst hji; left; simp
  · right
    have h1 : (cs.map Copy.dest).idxOf cs[i].dest = i := by
      have := List.Nodup.idxOf_getElem hn i (by simpa using hi)
      simpa using this
    beta_reduce
    rw [h1, List.Nodup.idxOf_getElem hn j hj]
    omega

theorem sequence_spec {order : List ValueId → List ValueId} (ho : ∀ l, (order l).Perm l) (next : ValueId)
    {cs : List Copy} (hn : (cs.map Copy.dest).Nodup) (hl : NoLiteralHazard cs) (hr : Orderable cs ∨ InOrder cs) :
    (Mir.sequence order next cs).2 = next ∧ (Mir.sequence order next cs).1.Perm cs ∧
      (Mir.sequence order next cs).1.Pairwise fun c c' => c'.source ≠ .Operand c.dest := by
  unfold Mir.sequence
  split_ifs with h
  · refine ⟨rfl, List.Perm.refl _, ?_⟩
    match cs, h with
    | [], _ => exact .nil
    | [c], _ => exact List.pairwise_singleton _ _
  · have hrank : ∃ rank : ValueId → ℕ, ∀ c ∈ cs, ∀ d ∈ cs.map Copy.dest, c.source = .Operand d →
        d = c.dest ∨ rank d < rank c.dest := by
      rcases hr with ⟨rank, hr⟩ | hr
      · exact ⟨rank, fun c hc d hd hs => .inr (hr c hc d hd hs)⟩
      · exact hr.rank hn
    obtain ⟨rank, hrank⟩ := hrank
    have hc : ∀ fuel keys, ∀ c ∈ findCycles (copyDeps cs) fuel keys, c.length ≤ 1 := by
      refine findCycles_short (rank := rank) ?_
      intro d m hm
      obtain ⟨c, hc, rfl, hs, hmo⟩ := mem_copyDeps hm
      obtain ⟨c', hc', hcd, -⟩ := mem_operandDests.1 hmo
      exact hrank c hc m (List.mem_map.2 ⟨c', hc', hcd⟩) hs
    simp only [breakCycles_short (hc _ _), List.nil_append, List.not_mem_nil, not_false_eq_true, decide_true, List.filter_true]
    refine ⟨trivial, ?_⟩
    by_cases hself : ∃ c ∈ cs, c.source = .Operand c.dest
    · obtain ⟨c, hcs, hs⟩ := hself
      rw [topoSort_self ho hn hl hcs hs]
      refine ⟨.refl _, ?_⟩
      rcases hr with ⟨rank, hr⟩ | hr
      · exact absurd (hr c hcs _ (List.mem_map_of_mem hcs) hs) (lt_irrefl _)
      · exact hr
    · refine topoSort_spec ho hn hl ⟨rank, fun c hc d hd hs => ?_⟩
      rcases hrank c hc d hd hs with rfl | h
      · exact absurd ⟨c, hc, hs⟩ hself
      · exact h

/-! ### Executing ordered copies -/

theorem evalInstr_copy {calls : Calls} {env : Env} {c : Copy} {x : Val} (h : copyValue env c = some x) :
    evalInstr calls c.instr env = some (Function.update env c.dest (some x)) := by
  unfold copyValue at h
  simp only [Option.bind_eq_some_iff] at h
  obtain ⟨t, h1, h2⟩ := h
  simp [Copy.instr, evalInstr, h1, h2]

theorem copyValue_update {env : Env} {c : Copy} {d : ValueId} {x : Option Val} (h : c.source ≠ .Operand d) :
    copyValue (Function.update env d x) c = copyValue env c := by
  unfold copyValue
  congr 1; funext t
  cases hs : c.source with
  | Literal _ => rfl
  | Error => rfl
  | Operand s =>
    simp only [readAt]
    rw [Function.update_of_ne]
    rintro rfl; exact h hs

theorem seq_copies {calls : Calls} {cs : List Copy} (hn : (cs.map Copy.dest).Nodup)
    (hp : cs.Pairwise fun c c' => c'.source ≠ .Operand c.dest) {env : Env}
    (hv : ∀ c ∈ cs, (copyValue env c).isSome) :
    ∃ env', evalInstrs calls (cs.map Copy.instr) env = some env' ∧ (∀ c ∈ cs, env' c.dest = copyValue env c) ∧
      ∀ v, v ∉ cs.map Copy.dest → env' v = env v := by
  induction cs generalizing env with
  | nil => exact ⟨env, rfl, by simp, by simp⟩
  | cons c cs ih =>
    simp only [List.map_cons, List.nodup_cons] at hn
    rw [List.pairwise_cons] at hp
    obtain ⟨x, hx⟩ := Option.isSome_iff_exists.1 (hv c (by simp))
    have hcv : ∀ c' ∈ cs, copyValue (Function.update env c.dest (some x)) c' = copyValue env c' :=
      fun c' hc' => copyValue_update (hp.1 c' hc')
    obtain ⟨env', h1, h2, h3⟩ := ih (env := Function.update env c.dest (some x)) hn.2 hp.2 (by
      intro c' hc'; rw [hcv c' hc']; exact hv c' (by simp [hc']))
    refine ⟨env', ?_, ?_, ?_⟩
    · simp only [List.map_cons, evalInstrs, evalInstr_copy hx, Option.bind_eq_bind, Option.bind_some, h1]
    · intro c' hc'
      rcases List.mem_cons.1 hc' with rfl | hc'
      · rw [h3 _ hn.1, hx]; simp
      · rw [h2 c' hc', hcv c' hc']
    · intro v hv'
      simp only [List.map_cons, List.mem_cons, not_or] at hv'
      rw [h3 v hv'.2, Function.update_of_ne hv'.1]

end Lang
end CairoM
