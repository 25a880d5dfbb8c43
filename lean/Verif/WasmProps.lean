import Verif.WasmExec

/-!
# C84: the WebAssembly front end

`Func.run` (`Verif.WasmSpec`) is the specification.
-/

namespace CairoM
namespace Wasm

open Mir Lang

/-! ### Parameters and results -/

theorem addParams_spec : ∀ (n : ℕ) (s : St) (i : ℕ) (mm : List (Origin × ℕ)) (ms : List (List (Origin × ℕ))),
    s.scopes = mm :: ms → s.addParams i (List.replicate n .U32) =
      { s with
        next := s.next + n
        types := (s.addParams i (List.replicate n .U32)).types
        params := s.params ++ List.range' s.next n
        scopes := (named 0 i (List.range' s.next n) ++ mm) :: ms }
  | 0, s, i, mm, ms, h => by
    simp [St.addParams, List.range', named, ← h]
  | n + 1, s, i, mm, ms, h => by
    have h2 : ({ (s.fresh .U32).1 with params := s.params ++ [s.next] }.insert ⟨0, i⟩ s.next).scopes =
        ((⟨0, i⟩, s.next) :: mm) :: ms := by simp [St.insert, St.fresh, h]
    have ih := addParams_spec n ({ (s.fresh .U32).1 with params := s.params ++ [s.next] }.insert ⟨0, i⟩ s.next) (i + 1) _ ms h2
    have e : s.addParams i (List.replicate (n + 1) .U32) =
      ({ (s.fresh .U32).1 with params := s.params ++ [s.next] }.insert ⟨0, i⟩ s.next).addParams (i + 1) (List.replicate n .U32) := rfl
    rw [e, ih]
    simp only [St.insert, St.fresh, List.range'_succ, named, List.append_assoc, List.cons_append,
      List.nil_append]
    congr 1
    omega

theorem results_spec : ∀ (n : ℕ) (s : St), (s.results (List.replicate n .U32)).2 = List.range' s.next n ∧
    (s.results (List.replicate n .U32)).1.params = s.params ∧
    (∀ v < s.next, (s.results (List.replicate n .U32)).1.types v = s.types v) ∧
    ∀ v ∈ List.range' s.next n, (s.results (List.replicate n .U32)).1.types v = some .U32
  | 0, s => by simp [St.results, List.range']
  | n + 1, s => by
    obtain ⟨h1, h2, h3, h4⟩ := results_spec n (s.fresh .U32).1
    have e : s.results (List.replicate (n + 1) .U32) =
      (((s.fresh .U32).1.results (List.replicate n .U32)).1, s.next :: ((s.fresh .U32).1.results (List.replicate n .U32)).2) := rfl
    have hn : (s.fresh .U32).1.next = s.next + 1 := rfl
    have ht : ∀ v, (s.fresh .U32).1.types v = Function.update s.types s.next (some .U32) v := fun _ => rfl
    rw [e]
    rw [hn] at h1 h3 h4
    refine ⟨by rw [List.range'_succ]; simp [h1], h2, fun v hv => ?_, fun v hv => ?_⟩
    · have ne : v ≠ s.next := by omega
      rw [h3 v (by omega), ht]
      exact Function.update_of_ne ne _ _
    · rw [List.range'_succ, List.mem_cons] at hv
      rcases hv with rfl | hv
      · rw [h3 _ (by omega), ht]
        exact Function.update_self _ _ _
      · exact h4 v hv

theorem bind_updates : ∀ (ds : List ℕ) (xs : List I32) (ρ : Lang.Env), ds.length = xs.length →
    Lang.bind ρ ds (xs.map word) = some (updates ρ ds xs)
  | [], [], ρ, _ => rfl
  | [], _ :: _, ρ, h => by simp at h
  | _ :: _, [], ρ, h => by simp at h
  | d :: ds, x :: xs, ρ, h => by
    simp only [List.map_cons, Lang.bind, updates]
    exact bind_updates ds xs _ (by simpa using h)

/-! ### The theorem -/

/-- The functions for which the front end is proved correct: labels are distinct; only a label follows an unconditional branch or
a loop; results of comparisons are used as conditions only; called functions have one result; and the function itself (outside
of its loops) does not return from a conditional branch. -/
def Func.supported (m : FuncTypes) (f : Func) : Bool :=
  seqOk true f.nodes && deepOk f.nodes && decide ((topIds f.nodes ++ innerIds f.nodes).Nodup) &&
    wordsOk m (flagsOf f.nodes) true f.nodes

/-- **C84** (part): a supported WebAssembly function that returns on some arguments returns the same integers after the
translation to MIR, whatever the arguments, the control flow and the number of iterations of its loops, if the called
functions are translated correctly.

Missing: functions outside `Func.supported`, and memory accesses (C86). -/
theorem C84_lowering_partial {m : FuncTypes} {calls : Calls} {mcalls : Lang.Calls} (hcalls : CallsOk m calls mcalls)
    {f : Func} {F : Function} (hF : lowerFunc m f = .ok F) (hok : f.supported m = true) {n : ℕ} {args vs : List I32}
    (hrun : f.run calls n args = some vs) : ∃ k, Lang.run mcalls F k (args.map word) = .returned (vs.map word) := by
  unfold lowerFunc at hF
  obtain ⟨ps, h1, hF⟩ := bindOk hF
  obtain ⟨rs, h2, hF⟩ := bindOk hF
  obtain ⟨sB, h3, hF⟩ := bindOk hF
  obtain ⟨sF, h4, hF⟩ := bindOk hF
  obtain ⟨bs, h5, hK⟩ := bindOk hF
  have hps := mirTypes_ok h1
  have hrs := mirTypes_ok h2
  subst hps hrs
  simp only [Func.supported, Bool.and_eq_true, decide_eq_true_eq] at hok
  obtain ⟨⟨⟨hseq, hdeep⟩, hnd⟩, hwo⟩ := hok
  -- the parameters
  obtain ⟨s0, hs0⟩ : ∃ s0, s0 = St.init.addParams 0 (List.replicate f.params.length .U32) := ⟨_, rfl⟩
  rw [← hs0] at h3
  have hsp := addParams_spec f.params.length St.init 0 [] [] rfl
  rw [← hs0] at hsp
  have p1 : s0.blocks = [⟨[], .Unreachable⟩] := by rw [hsp]; rfl
  have p2 : s0.labels = [] := by rw [hsp]; rfl
  have p3 : s0.labelPhis = [] := by rw [hsp]; rfl
  have p4 : s0.loops = [] := by rw [hsp]; rfl
  have p5 : s0.deferred = [] := by rw [hsp]; rfl
  have p6 : s0.current = 0 := by rw [hsp]; rfl
  have p7 : s0.next = f.params.length := by rw [hsp]; simp [St.init]
  have p8 : s0.params = List.range' 0 f.params.length := by rw [hsp]; simp [St.init]
  have p9 : s0.scopes = [named 0 0 (List.range' 0 f.params.length)] := by rw [hsp]; simp [St.init]
  have i0 : Inv s0 [] true := by
    refine ⟨fun _ => ⟨⟨[], .Unreachable⟩, by rw [p1, p6]; rfl, rfl⟩, by simp, by simp, by simp, by simp [p5], ?_, by simp [p4]⟩
    intro id ds h
    rw [p3] at h
    simp at h
  have fresh0 : ∀ ids, Fresh s0 ids := fun ids id _ => by rw [p2, p3]; simp
  obtain ⟨n1, _, n3⟩ := List.nodup_append.mp hnd
  have al := allocate_ok f.nodes s0 sB [] true 0 _ [] h3 i0 (fresh0 _) n1 p9
  obtain ⟨mm, e1, e2, e3⟩ := al.scope
  have fr : Frame m sF sB sF 0 f.nodes [] true := by
    refine ⟨h4, hseq, hdeep, al.inv, hnd, by simp, ?_, ⟨mm, [], e1, e2⟩, Le.refl _⟩
    intro j hj
    have hne : j ∉ topIds f.nodes := fun h => n3 j h j hj rfl
    rw [al.labels j hne, al.phis j hne]
    exact fresh0 _ j hj
  have gg := genNodes_ok m f.nodes sB sF 0 [] true fr.gen fr.seq fr.deep fr.inv fr.nodup fr.disj fr.fresh fr.scopes
  -- the finished function
  obtain ⟨q1, q2, q3, q4⟩ := results_spec f.results.length sF
  have hFb : F.blocks = bs := by cases hK; rfl
  have hFp : F.params = List.range' 0 f.params.length := by
    cases hK
    simp only
    rw [q2, gg.params, al.params, p8]
  have hFr : returnTys F = (List.replicate f.results.length MirType.U32).map some := by
    cases hK
    simp only [returnTys]
    rw [q1]
    have : ∀ l : List ℕ, (∀ v ∈ l, v ∈ List.range' sF.next f.results.length) →
        l.map (sF.results (List.replicate f.results.length .U32)).1.types = (List.replicate l.length MirType.U32).map some := by
      intro l
      induction l with
      | nil => intro; rfl
      | cons v l ih =>
        intro h
        simp only [List.map_cons, List.length_cons, List.replicate_succ]
        rw [q4 v (h v (by simp)), ih fun w hw => h w (by simp [hw])]
    have h := this _ (fun _ h => h)
    rw [List.length_range'] at h
    exact h
  have hfin : Final F sF f.results.length := by
    refine ⟨fun b c hb => ?_, hFr⟩
    unfold St.finish at h5
    split at h5
    · cases h5
      rw [hFb, List.getElem?_mapIdx, hb]
      rfl
    · cases h5
  -- the run
  unfold Func.run at hrun
  cases hnodes : f.nodes with
  | nil => rw [hnodes] at hrun; cases hrun
  | cons nd rest =>
  rw [hnodes] at hrun
  cases nd with
  | inputs ts =>
    simp only at hrun
    split at hrun
    swap
    · cases hrun
    rename_i hlen
    split at hrun
    swap
    · cases hrun
    rename_i us hex
    split at hrun
    swap
    · cases hrun
    rename_i hlen2
    cases hrun
    let C : Ctx := ⟨m, calls, mcalls, F, sF, f.results.length, hfin, hcalls⟩
    have hE := (run_ok C n).1
    rw [hnodes] at fr al e2 hwo
    obtain ⟨u, hg1, hg2, g, fr2⟩ := fr.next
    have hu : u = sB := by
      simp only [St.genNode, Except.ok.injEq] at hg1
      exact hg1.symm
    subst hu
    have hloops : u.loops = [] := by rw [al.loops, p4]
    have hcur : u.current = 0 := by rw [al.current, p6]
    have hun : f.params.length ≤ u.next := by
      have := al.le.next
      omega
    have hphi : ∀ j ∈ topIds rest, ∀ ds, sF.labelPhis.lookup j = some ds → ∀ d ∈ ds, f.params.length ≤ d := by
      intro j hj ds hds d hd
      obtain ⟨_, ds', _, t2, _⟩ := fr2.inv.pending j (List.mem_append.mpr (Or.inl hj))
      have := fr2.le.phis j ds' t2
      rw [hds, Option.some.injEq] at this
      subst this
      have := al.ids j hj ds t2 d hd
      omega
    have hgo : Goes mcalls F sF u (updates (fun _ => none) (List.range' 0 f.params.length) args) (vs.map word) := by
      refine hE rest u sF (0 + 1) [] (flagsOf (.inputs ts :: rest)) true (bind (fun _ => none) 0 args)
        (updates (fun _ => none) (List.range' 0 f.params.length) args) (.outer 0) vs _ fr2 (Flags.of _).tail ?_ (fun _ => rfl)
        ?_ hex ?_
      · simp only [wordsOk, Bool.and_eq_true] at hwo
        exact hwo.2
      · intro o x ho
        unfold bind at ho
        split at ho
        swap
        · cases ho
        rename_i hnode
        have hlt : o.output < (List.range' 0 f.params.length).length := by
          have := (List.getElem?_eq_some_iff.mp ho).1
          rw [List.length_range']
          omega
        have hd0 : (List.range' 0 f.params.length)[o.output]? = some (List.range' 0 f.params.length)[o.output] :=
          List.getElem?_eq_getElem hlt
        have hmem := List.getElem_mem hlt
        have hlt2 : (List.range' 0 f.params.length)[o.output] < f.params.length := by
          rw [List.mem_range'_1] at hmem
          omega
        refine ⟨by omega, (List.range' 0 f.params.length)[o.output], ?_, by omega, ?_, ?_⟩
        · have e4 := e3 o (fun j id us hj => by
            rw [hnodes] at hj
            cases j with
            | zero => simp at hj
            | succ j => omega)
          have e5 := named_get 0 (List.range' 0 f.params.length) 0 o.output _ [] hd0
          rw [List.append_nil] at e5
          have hoo : (⟨0, 0 + o.output⟩ : Origin) = o := by
            cases o
            simp only at hnode
            simp [hnode]
          rw [hoo] at e5
          rw [e1]
          simp only [getIn, e4, e5]
        · intro j hj ds hds hd
          have h1 := hphi j hj ds hds _ hd
          omega
        · have hflag : flagsOf (.inputs ts :: rest) o = false := by
            simp [flagsOf, hnode]
          rw [hflag]
          exact updates_get _ args _ o.output _ x List.nodup_range' hd0 ho
      · rw [hloops]
        exact ⟨rfl, hlen2⟩
    -- block 0
    have hb0 : u.blocks[u.current]? = some ⟨[], .Unreachable⟩ := by
      rw [hcur, al.blocks 0 (by rw [p1]; simp), p1]
      rfl
    obtain ⟨c', more, k1, k2, k3⟩ := fr2.le.final hb0
    obtain ⟨ρ1, r1, r2⟩ := hgo _ c' more hb0 k1 k2
    have hbl := hfin.blocks _ c' k1
    rw [k2, List.nil_append, finish_more _ _ k3, hcur] at hbl
    have hbind := bind_updates (List.range' 0 f.params.length) args (fun _ => none) (by rw [List.length_range']; omega)
    rcases r2 with r2 | ⟨t, r2, k, r3⟩
    · refine ⟨1, ?_⟩
      simp only [Lang.run, hFp, hbind, Lang.exec, hbl, evalBlock, evalPhis_more _ _ k3, Option.bind_eq_bind, Option.bind_some, r1, r2]
    · refine ⟨k + 1, ?_⟩
      rw [hcur] at r3
      simp only [Lang.run, hFp, hbind, Lang.exec, hbl, evalBlock, evalPhis_more _ _ k3, Option.bind_eq_bind, Option.bind_some, r1, r2]
      exact r3
  | _ => simp only [reduceCtorEq] at hrun

end Wasm
end CairoM
