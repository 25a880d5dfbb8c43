import Verif.PipelineSpec

/-!
# From source to machine: lemmas
-/

namespace CairoM
namespace Pipeline

open Mir Lang Codegen Source Lower

/-! ### Types of values -/

theorem isOf_hasTy {x : Val} {t : Ty} : isOf x t = true ↔ x.HasTy t := by
  cases x <;> exact ⟨of_decide_eq_true, fun h => decide_eq_true h⟩

theorem areOf_iff : ∀ {xs : List Val} {ts : List Ty}, areOf xs ts = true ↔ List.Forall₂ Val.HasTy xs ts
  | [], [] => by simp [areOf]
  | [], _ :: _ => by simp [areOf]
  | _ :: _, [] => by simp [areOf]
  | x :: xs, t :: ts => by simp [areOf, isOf_hasTy, areOf_iff]

theorem valTy_of_hasTy {x : Val} {t : Ty} (h : x.HasTy t) : valTy x = t := by
  cases x <;> simp only [Val.HasTy] at h <;> simp [valTy, h]

theorem map_valTy : ∀ {xs : List Val} {ts : List Ty}, List.Forall₂ Val.HasTy xs ts → xs.map valTy = ts
  | _, _, .nil => rfl
  | _, _, .cons h hs => by rw [List.map_cons, valTy_of_hasTy h, map_valTy hs]

theorem valTy_mirTy {x : Val} {t : Ty} : ValTy x (some (mirTy t)) ↔ x.HasTy t :=
  ⟨fun h => h.hasTy (scalar_mirTy t), fun h => ⟨_, t, rfl, scalar_mirTy t, h⟩⟩

theorem forall₂_mirTy : ∀ {xs : List Val} {ts : List Ty},
    List.Forall₂ (fun y (t : MirType) => ValTy y (some t)) xs (ts.map mirTy) ↔ List.Forall₂ Val.HasTy xs ts
  | [], [] => by simp
  | [], _ :: _ => by simp
  | _ :: _, [] => by simp
  | x :: xs, t :: ts => by simp [valTy_mirTy, forall₂_mirTy]

theorem all_ok {xs : List Val} {ts : List Ty} (h : List.Forall₂ Val.HasTy xs ts) : ∀ x ∈ xs, x.Ok := by
  intro x hx
  induction h with
  | nil => cases hx
  | cons h hs ih =>
    rcases List.mem_cons.1 hx with rfl | hx
    · exact Val.HasTy.ok h
    · exact ih hx

/-! ### Finitely many calls -/

section
variable {calls : Calls} {tab : ℕ → Calls}

/-- What `calls` returns, `tab n` returns for all large `n`. -/
def Limit (tab : ℕ → Calls) (calls : Calls) : Prop :=
  ∀ c xs ys, calls c xs = some ys → ∃ n0, ∀ n, n0 ≤ n → tab n c xs = some ys

theorem instr_limit (h : Limit tab calls) {i : Instr} {e e' : Env} (he : evalInstr calls i e = some e') :
    ∃ n0, ∀ n, n0 ≤ n → evalInstr (tab n) i e = some e' := by
  cases i
  case Call ds c args sig =>
    simp only [evalInstr, Option.bind_eq_bind, Option.bind_eq_some_iff] at he
    obtain ⟨xs, h1, ys, h2, h3⟩ := he
    obtain ⟨n0, hn⟩ := h c xs ys h2
    refine ⟨n0, fun n hle => ?_⟩
    simp only [evalInstr, Option.bind_eq_bind, Option.bind_eq_some_iff]
    exact ⟨xs, h1, ys, hn n hle, h3⟩
  all_goals exact ⟨0, fun n _ => he⟩

theorem instrs_limit (h : Limit tab calls) : ∀ {is : List Instr} {e e' : Env}, evalInstrs calls is e = some e' →
    ∃ n0, ∀ n, n0 ≤ n → evalInstrs (tab n) is e = some e'
  | [], _, _, he => ⟨0, fun _ _ => he⟩
  | i :: is, e, e', he => by
    simp only [evalInstrs, Option.bind_eq_bind, Option.bind_eq_some_iff] at he
    obtain ⟨e1, h1, h2⟩ := he
    obtain ⟨n1, g1⟩ := instr_limit h h1
    obtain ⟨n2, g2⟩ := instrs_limit h h2
    refine ⟨max n1 n2, fun n hle => ?_⟩
    simp only [evalInstrs, Option.bind_eq_bind, Option.bind_eq_some_iff]
    exact ⟨e1, g1 n (by omega), g2 n (by omega)⟩

theorem exec_limit (h : Limit tab calls) {f : Function} {vs : List Val} : ∀ {m : ℕ} {pred : Option BlockId} {b : BlockId}
    {e : Env}, Lang.exec calls f m pred b e = .returned vs →
    ∃ n0, ∀ n, n0 ≤ n → Lang.exec (tab n) f m pred b e = .returned vs
  | 0, _, _, _, he => by cases he
  | m + 1, pred, b, e, he => by
    simp only [Lang.exec] at he ⊢
    cases hb : f.blocks[b]? with
    | none => rw [hb] at he; cases he
    | some blk =>
      rw [hb] at he
      simp only at he ⊢
      cases hev : evalBlock calls (returnTys f) blk pred e with
      | none => rw [hev] at he; cases he
      | some r =>
        rw [hev] at he
        obtain ⟨n1, g1⟩ : ∃ n0, ∀ n, n0 ≤ n → evalBlock (tab n) (returnTys f) blk pred e = some r := by
          simp only [evalBlock, Option.bind_eq_bind, Option.bind_eq_some_iff] at hev
          obtain ⟨⟨e1, is⟩, h1, e2, h2, x, h3, h4⟩ := hev
          obtain ⟨n0, hn⟩ := instrs_limit h h2
          refine ⟨n0, fun n hle => ?_⟩
          simp only [evalBlock, Option.bind_eq_bind, Option.bind_eq_some_iff]
          exact ⟨⟨e1, is⟩, h1, e2, hn n hle, x, h3, h4⟩
        obtain ⟨x, e2⟩ := r
        cases x with
        | ret ws => exact ⟨n1, fun n hle => by rw [g1 n hle]; exact he⟩
        | goto t =>
          obtain ⟨n2, g2⟩ := exec_limit h (m := m) he
          exact ⟨max n1 n2, fun n hle => by rw [g1 n (by omega)]; exact g2 n (by omega)⟩

theorem run_limit (h : Limit tab calls) {f : Function} {vs args : List Val} {m : ℕ}
    (hr : Lang.run calls f m args = .returned vs) :
    ∃ n0, ∀ n, n0 ≤ n → Lang.run (tab n) f m args = .returned vs := by
  unfold Lang.run at hr ⊢
  cases hb : Lang.bind (fun _ => none) f.params args with
  | none => rw [hb] at hr; cases hr
  | some e =>
    rw [hb] at hr
    exact exec_limit h hr

end

/-! ### Passes -/

/-- Calls of the functions of a program return values of the declared types. -/
def Typed (S : Sem) (calls : Calls) : Prop :=
  ∀ c xs ys, calls c xs = some ys → ∃ s, S.sig c = some s ∧ List.Forall₂ Val.HasTy ys s.2

theorem allInstrs_iff {f : Function} {q : Instr → Bool} :
    allInstrs f q = true ↔ ∀ b ∈ f.blocks, ∀ i ∈ b.instrs, q i = true := by
  simp [allInstrs]

theorem callB_typed {S : Sem} {calls : Calls} (ht : Typed S calls) {f : Function} (h : allInstrs f (callB S) = true) :
    Lang.CallsTyped f calls := by
  intro b hb ds c args sig hi xs ys hc
  have := allInstrs_iff.1 h b hb _ hi
  obtain ⟨s, hs, hy⟩ := ht c xs ys hc
  simp only [callB, hs] at this
  have := areTys_sound this
  have he : sig.returns = s.2.map mirTy := List.map_injective_iff.2 (Option.some_injective _) this
  rw [he]
  exact forall₂_mirTy.2 hy

theorem args_typed {types : ValueId → Option MirType} {xs : List Val} {params : List ValueId} {ts : List Ty}
    (h : List.Forall₂ Val.HasTy xs ts) (hp : areTys (params.map types) (ts.map mirTy) = true) :
    List.Forall₂ (fun x p => ValTy x (types p)) xs params :=
  forall₂_types (areTys_sound hp) (forall₂_mirTy.2 h)

theorem reachB_run {f : Function} (h : reachB f = true) (calls : Calls) (n : ℕ) (args : List Val) :
    Lang.run calls (dropUnreachable f) n args = Lang.run calls f n args := by
  simp only [reachB, Bool.or_eq_true, Bool.and_eq_true, List.all_eq_true, List.mem_range, List.contains_iff_mem,
    decide_eq_true_eq, Option.all_eq_true] at h
  rcases h with h | h
  · rw [C61_all_reachable_partial f h.1 h.2]
  · refine C61_unreachable_partial calls f (fun i hi b hb j hj d ty ss e => ?_) n args
    have := h i hi b hb j hj
    rw [e] at this
    simp [notPhi] at this

theorem standardB_run {k : Config} (hk : k.Ok) {S : Sem} {calls : Calls} (ht : Typed S calls) {ps rs : List Ty}
    {f g : Function} (h : standardB k S ps rs f = true) (hg : standardPipeline k.copies k.values f = .ok g)
    {args vs : List Val} (hargs : List.Forall₂ Val.HasTy args ps) {n : ℕ} (hr : Lang.run calls f n args = .returned vs) :
    ∃ m, Lang.run calls g m args = .returned vs := by
  have hok : Lang.CallsOk calls := fun c xs ys hc => by
    obtain ⟨s, -, hy⟩ := ht c xs ys hc
    exact all_ok hy
  have ha := all_ok hargs
  simp only [standardB, Bool.and_eq_true] at h
  simp only [standardPipeline] at hg
  obtain ⟨h1, h⟩ := h
  split at hg
  · cases hg
  rename_i f1 e1
  rw [e1] at h
  simp only [Bool.and_eq_true] at h
  obtain ⟨⟨⟨⟨h2, h3⟩, h4⟩, h5⟩, h⟩ := h
  split at hg
  · cases hg
  rename_i f2 e2
  rw [e2] at h
  simp only [Bool.and_eq_true] at h
  obtain ⟨h6, h⟩ := h
  split at hg
  · cases hg
  rename_i f3 e3
  rw [e3] at h
  simp only [Bool.and_eq_true] at h
  obtain ⟨⟨h7, h8⟩, h⟩ := h
  split at hg
  · cases hg
  rename_i f5 e5
  rw [e5] at h
  simp only [Bool.and_eq_true] at h
  obtain ⟨⟨h9, h10⟩, h11⟩ := h
  injection hg with hg
  subst hg
  have r1 := C45_function_partial calls hok f f1 e1 (fun b hb i hi op d l r e => simplifiableB_sound (d := d)
    (e ▸ allInstrs_iff.1 h1 b hb i hi)) n args ha (by rw [hr]; simp)
  rw [hr] at r1
  simp only [signatureB, Bool.and_eq_true] at h3
  have r2 := C62_constant_propagation_partial calls f1 f2 e2 (typedB_sound h2) (callB_typed ht h4)
    (fun b hb i hi => of_decide_eq_true (allInstrs_iff.1 h5 b hb i hi)) n args (args_typed hargs h3.1) (by rw [r1]; simp)
  rw [r1] at r2
  have r3 := C44_function_partial calls hok f2 f3 e3 (fun b hb i hi op d a a' e => foldableB_sound (d := d)
    (e ▸ allInstrs_iff.1 h6 b hb i hi)) n args ha (by rw [r2]; simp)
  rw [r2] at r3
  obtain ⟨r4, s4⟩ := C68_copy_propagation calls f3 (ssaB_sound h7) k.copies hk.copies n args (by rw [r3]; simp)
  rw [r3] at r4
  obtain ⟨r5, -⟩ := C69_common_subexpressions_partial calls _ s4 n args (by rw [r4]; simp)
  rw [r4] at r5
  have r6 := C46_simplify_partial calls _ f5 n args e5 (fun b hb => termCanonB_sound (List.all_eq_true.1 h8 b hb))
    (by rw [r5]; simp)
  rw [r5] at r6
  have r7 := C46_fuse_partial calls f5 n args (fun b hb i hi op d l r e => fusableB_sound (d := d)
    (e ▸ allInstrs_iff.1 h9 b hb i hi)) (by rw [r6]; simp)
  rw [r6] at r7
  have r8 := reachB_run h10 calls n args
  rw [r7] at r8
  have r9 := C60_dead_instructions calls (dropUnreachable (fuseBranches f5)) n args (by rw [r8]; simp)
  rw [r8] at r9
  obtain ⟨L, D, hphi⟩ := phiB_sound h11
  exact C57_function_partial calls _ L D hphi k.values hk.values n args vs r9

theorem checkFn_run {k : Config} (hk : k.Ok) {S : Sem} {calls : Calls} (ht : Typed S calls) {f : Name × Fn} {g : Function}
    (h : checkFn k S f = true) (hg : toFunction k S f = some g) {args vs : List Val}
    (hargs : List.Forall₂ Val.HasTy args (f.2.params.map S.varTy)) {n : ℕ}
    (hr : Source.run false calls f.2 n args = .returned vs) : ∃ m, Lang.run calls g m args = .returned vs := by
  simp only [toFunction, Option.bind_eq_some_iff] at hg
  obtain ⟨F, hF, hg⟩ := hg
  simp only [checkFn, Bool.and_eq_true, hF] at h
  obtain ⟨hok, ⟨hcl, hp⟩, -⟩ := h
  have hc : Lower.CallsTyped S calls := by
    intro c ps rs xs ys hs hx hcall
    obtain ⟨s, hs', hy⟩ := ht c xs ys hcall
    rw [hs] at hs'
    injection hs' with hs'
    subst hs'
    exact map_valTy hy
  obtain ⟨N, hN⟩ := C72_lowering_partial k.lower hk.lower S calls hc f.2 hok f.1 F hF hcl args (map_valTy hargs) n
    (by rw [hr]; simp)
  have hN := hN 0
  rw [hr] at hN
  unfold passes at hg
  split_ifs at hg hp with ho
  · split at hg
    · injection hg with hg
      subst hg
      rename_i e
      exact standardB_run hk ht hp e hargs hN
    · cases hg
  · injection hg with hg
    subst hg
    obtain ⟨L, D, hphi⟩ := phiB_sound hp
    exact C57_function_partial calls _ L D hphi k.values hk.values _ args vs hN

/-! ### The meaning of a program is that of its compiled form -/

theorem toFunctions_get {k : Config} {S : Sem} : ∀ {fs : List (Name × Fn)} {md : Module}, toFunctions k S fs = some md →
    md.length = fs.length ∧ ∀ (c : ℕ) f, fs[c]? = some f → ∃ g, md[c]? = some g ∧ toFunction k S f = some g
  | [], md, h => by
    simp only [toFunctions, Option.some.injEq] at h
    subst h
    simp
  | f :: fs, md, h => by
    simp only [toFunctions, Option.bind_eq_some_iff, Option.map_eq_some_iff] at h
    obtain ⟨g, hg, gs, hgs, rfl⟩ := h
    obtain ⟨h1, h2⟩ := toFunctions_get hgs
    refine ⟨by simp [h1], fun c f' hf => ?_⟩
    cases c with
    | zero =>
      simp only [List.getElem?_cons_zero, Option.some.injEq] at hf ⊢
      subst hf
      exact ⟨g, rfl, hg⟩
    | succ c => simpa using h2 c f' (by simpa using hf)

theorem checkFn_sig {k : Config} {S : Sem} {f : Name × Fn} {g : Function}
    (h : checkFn k S f = true) (hg : toFunction k S f = some g) :
    g.params.map g.types = (f.2.params.map S.varTy |>.map mirTy).map some ∧
      g.returns.map g.types = (f.2.rets.map mirTy).map some ∧ g.name = f.1 := by
  simp only [toFunction, Option.bind_eq_some_iff] at hg
  obtain ⟨F, hF, hg⟩ := hg
  simp only [checkFn, Bool.and_eq_true, hF, hg, signatureB] at h
  exact ⟨areTys_sound h.2.2.1.1, areTys_sound h.2.2.1.2, of_decide_eq_true h.2.2.2⟩

theorem returnTypes_ok {f : Function} : ∀ {rs : List ValueId} {ts : List MirType}, rs.map f.types = ts.map some →
    returnTypes f rs = .ok ts
  | [], [], _ => rfl
  | r :: rs, t :: ts, h => by
    simp only [List.map_cons, List.cons.injEq] at h
    simp only [returnTypes, h.1, returnTypes_ok h.2]
  | [], _ :: _, h => by simp at h
  | _ :: _, [], h => by simp at h

theorem sem_sig {p : Program} {c : ℕ} {f : Name × Fn} (h : p.fns[c]? = some f) :
    p.sem.sig c = some (f.2.params.map p.varTy, f.2.rets) := by
  simp [Program.sem, h]

theorem table_lemma {k : Config} (hk : k.Ok) {p : Program} (hch : checkProgram k p = true) {md : Module}
    (hmd : toMir k p = some md) (n : ℕ) : ∀ d : ℕ, Typed p.sem (p.table false n d) ∧
      Limit (fun m => callTable md m d) (p.table false n d) := by
  simp only [checkProgram, Bool.and_eq_true, List.all_eq_true, hmd] at hch
  obtain ⟨hfn, hmod⟩ := hch
  obtain ⟨hok, hnum, hpar⟩ := moduleB_sound hmod
  obtain ⟨hlen, hget⟩ := toFunctions_get hmd
  intro d
  induction d with
  | zero => constructor <;> (intro c xs ys h; cases h)
  | succ d ih =>
    obtain ⟨iht, ihl⟩ := ih
    have main : ∀ c xs ys, p.table false n (d + 1) c xs = some ys → ∃ f g, p.fns[c]? = some f ∧ md[c]? = some g ∧
        List.Forall₂ Val.HasTy ys f.2.rets ∧ ∃ m, Lang.run (p.table false n d) g m xs = .returned ys := by
      intro c xs ys h
      simp only [Program.table] at h
      split at h
      · cases h
      rename_i f hf
      split_ifs at h with hty
      split at h
      · rename_i vs hr
        injection h with h
        subst h
        obtain ⟨g, hg, htf⟩ := hget c f hf
        have hargs := areOf_iff.1 hty
        obtain ⟨m, hm⟩ := checkFn_run hk iht (hfn f (List.mem_of_getElem? hf)) htf hargs hr
        obtain ⟨sp, sr, -⟩ := checkFn_sig (hfn f (List.mem_of_getElem? hf)) htf
        obtain ⟨live, hcal⟩ := hok.calling g (List.mem_of_getElem? hg)
        refine ⟨f, g, hf, hg, ?_, m, hm⟩
        have hco : ∀ blk ∈ g.blocks, Codegen.CallsOk md blk (p.table false n d) (fun _ _ _ => True) := by
          intro blk hblk ds c' args sig hi
          obtain ⟨g', hg', -, hgr⟩ := hok.calls g (List.mem_of_getElem? hg) blk hblk ds c' args sig hi
          refine ⟨g', hg', fun xs' ys' _ hc' => ⟨trivial, ?_⟩⟩
          obtain ⟨s, hs, hy⟩ := iht c' xs' ys' hc'
          cases hf' : p.fns[c']? with
          | none => simp [Program.sem, hf'] at hs
          | some f' =>
            obtain ⟨g'', hg'', htf'⟩ := hget c' f' hf'
            rw [hg'] at hg''
            injection hg'' with hg''
            subst hg''
            rw [sem_sig hf'] at hs
            injection hs with hs
            subst hs
            obtain ⟨-, sr', -⟩ := checkFn_sig (hfn f' (List.mem_of_getElem? hf')) htf'
            rw [hgr] at sr'
            have : sig.returns = f'.2.rets.map mirTy := List.map_injective_iff.2 (Option.some_injective _) sr'
            rw [this]
            exact forall₂_mirTy.2 hy
        unfold Lang.run at hm
        cases hb : Lang.bind (fun _ => none) g.params xs with
        | none => rw [hb] at hm; cases hm
        | some e =>
          rw [hb] at hm
          have he : EnvTyped g.types e := bind_typed (env := fun _ => none) (fun v x h => by cases h) sp (forall₂_mirTy.2 hargs) hb
          exact forall₂_mirTy.1 (exec_typed hcal hco (returnTypes_ok sr) he hm)
      · cases h
    constructor
    · intro c xs ys h
      obtain ⟨f, g, hf, -, hy, -⟩ := main c xs ys h
      exact ⟨_, sem_sig hf, hy⟩
    · intro c xs ys h
      obtain ⟨f, g, -, hg, -, m, hm⟩ := main c xs ys h
      obtain ⟨n0, hn⟩ := run_limit ihl hm
      refine ⟨max n0 m, fun m' hle => ?_⟩
      simp only [callTable, hg]
      have h1 := hn m' (by omega)
      have h2 := run_more (n := m) (F := g) (args := xs) (calls := callTable md m' d) (by rw [h1]; simp) (m' - m)
      rw [h1, Nat.add_sub_cancel' (by omega)] at h2
      rw [h2]

end Pipeline
end CairoM
