import Verif.LoweringFor

/-!
# Every statement is lowered correctly

The lemmas on the single constructs are put together by induction on the statement.
-/

namespace CairoM
namespace Lower

open Mir Lang Source

variable {calls : Calls}

theorem loops_frame : ∀ s t, LoopsOk s → Frame s t → LoopsOk t := fun _ _ h hf => h.frame hf

theorem any_frame : ∀ s t : St, (fun _ : St => True) s → Frame s t → (fun _ : St => True) t := fun _ _ _ _ => trivial

theorem StmtOkL.lower {L : St → Prop} {S : Sem} {rets : List Ty} {d : ℕ} {low low' : St → Option St}
    {ex : ℕ → Store → Outcome} (h : StmtOkL L S calls rets d low ex) (hl : low' = low) :
    StmtOkL L S calls rets d low' ex :=
  hl ▸ h

/-- The statements that do not change the flow of control need nothing of the enclosing loops. -/
theorem simple_ok {L : St → Prop} (hL : ∀ s t, L s → Frame s t → L t) (o : Opts) (S : Sem) (rets : List Ty)
    (hc : CallsTyped S calls) (s : Stmt) (hs : s.simple = true) (hok : s.ok S rets = true) :
    StmtOkL L S calls rets 1 (lowerStmt o S s) (fun n σ => Source.exec false calls n s σ) := by
  cases s with
  | letS x e =>
    refine (assign_ok hL (o := o) hc (e := e) (x := x) (by simpa [Stmt.ok] using hok) ?_).lower ?_
    · intro n s
      cases n with
      | zero => left; exact ⟨by omega, by simp [Source.exec]⟩
      | succ n => right; simp only [Source.exec]; cases eval false calls s e <;> rfl
    · funext st; simp [lowerStmt]
  | assign x e =>
    refine (assign_ok hL (o := o) hc (e := e) (x := x) (by simpa [Stmt.ok] using hok) ?_).lower ?_
    · intro n s
      cases n with
      | zero => left; exact ⟨by omega, by simp [Source.exec]⟩
      | succ n => right; simp only [Source.exec]; cases eval false calls s e <;> rfl
    · funext st; simp [lowerStmt]
  | expr e =>
    refine (expr_ok hL (o := o) hc (e := e) (by simpa [Stmt.ok] using hok) ?_).lower ?_
    · intro n s
      cases n with
      | zero => left; exact ⟨by omega, by simp [Source.exec]⟩
      | succ n => right; simp only [Source.exec]; cases eval false calls s e <;> rfl
    · funext st; simp [lowerStmt]
  | assert e =>
    refine (assert_ok hL (o := o) hc (e := e) (by simpa [Stmt.ok] using hok) ?_).lower ?_
    · intro n s
      cases n with
      | zero => left; exact ⟨by omega, by simp [Source.exec]⟩
      | succ n => right; simp only [Source.exec]; rcases eval false calls s e with _ | (_ | _ | (_ | _) | _) <;> rfl
    · funext st; simp [lowerStmt]
  | call g args =>
    simp only [Stmt.ok] at hok
    split at hok
    · rename_i ps rs ts hsig hts
      simp only [Bool.and_eq_true, decide_eq_true_eq] at hok
      obtain ⟨rfl, hsm⟩ := hok
      refine (call_ok (o := o) hc hsig hts hsm ?_).lower ?_
      · intro n s
        cases n with
        | zero => left; exact ⟨by omega, by simp [Source.exec]⟩
        | succ n => right; simp only [Source.exec]; cases (evalArgs false calls s args).bind (calls g) <;> rfl
      · funext st; simp [lowerStmt, hsig]
    · simp at hok
  | _ => simp [Stmt.simple] at hs

/-- A statement that does not change the flow of control does not leave a loop. -/
theorem simple_normal (s : Stmt) (hs : s.simple = true) (n : ℕ) (σ σ' : Store) :
    Source.exec false calls n s σ ≠ .brk σ' ∧ Source.exec false calls n s σ ≠ .cont σ' := by
  cases n with
  | zero => simp [Source.exec]
  | succ n =>
    cases s <;> simp only [Stmt.simple, Bool.false_eq_true] at hs <;> simp only [Source.exec]
    all_goals split <;> simp

mutual
/-- Every well-typed statement is lowered correctly. -/
theorem stmt_ok (o : Opts) (hord : ∀ l, (o.order l).Perm l) (S : Sem) (rets : List Ty) (hc : CallsTyped S calls) :
    (s : Stmt) → s.ok S rets = true →
      ∃ d, StmtOk S calls rets d (lowerStmt o S s) (fun n σ => Source.exec false calls n s σ)
  | .letS x e, hok => ⟨1, simple_ok loops_frame o S rets hc _ rfl hok⟩
  | .assign x e, hok => ⟨1, simple_ok loops_frame o S rets hc _ rfl hok⟩
  | .expr e, hok => ⟨1, simple_ok loops_frame o S rets hc _ rfl hok⟩
  | .assert e, hok => ⟨1, simple_ok loops_frame o S rets hc _ rfl hok⟩
  | .call g args, hok => ⟨1, simple_ok loops_frame o S rets hc _ rfl hok⟩
  | .ret, hok => by
    simp only [Stmt.ok, List.isEmpty_iff] at hok
    subst hok
    refine ⟨1, (ret_ok ?_).lower ?_⟩
    · intro n s
      cases n with
      | zero => left; exact ⟨by omega, by simp [Source.exec]⟩
      | succ n => right; simp only [Source.exec]
    · funext st; simp [lowerStmt]
  | .retE e, hok => by
    simp only [Stmt.ok] at hok
    split at hok
    · refine ⟨1, (retE_ok (o := o) hc hok ?_).lower ?_⟩
      · intro n s
        cases n with
        | zero => left; exact ⟨by omega, by simp [Source.exec]⟩
        | succ n => right; simp only [Source.exec]; cases eval false calls s e <;> rfl
      · funext st; simp [lowerStmt]
    · simp at hok
  | .ifThen c t, hok => by
    simp only [Stmt.ok, Bool.and_eq_true, Expr.ok, decide_eq_true_eq] at hok
    obtain ⟨⟨hty, hsm⟩, hok⟩ := hok
    obtain ⟨d, hT⟩ := stmt_ok o hord S rets hc t hok
    refine ⟨d + 1, (expr_then loops_frame (o := o) hc hty hsm
      (ex := fun n x s => match x with
        | .bool true => Source.exec false calls (n - 1) t s
        | .bool false => .normal s
        | _ => .fault)
      (low := fun v st => do
        let (tb, st) := st.newBlock
        let (m, st) := st.newBlock
        let st ← st.terminate (.If v tb m)
        let st ← st.seal o tb
        let st ← st.seal o m
        let st ← lowerStmt o S t (st.switch tb)
        let fs := st.finals
        (st.switch m).joins fs m) ?_ ?_).lower ?_⟩
    · intro n s
      cases n with
      | zero => left; exact ⟨by omega, by simp only [Source.exec]⟩
      | succ n =>
        right; simp only [Source.exec, Nat.add_sub_cancel]
        rcases eval false calls s c with _ | (_ | _ | (_ | _) | _) <;> rfl
    · intro v st st' hg ho hl hv h
      obtain ⟨h1, h2, h3⟩ := ifThen_ok hord hT v st st' hg hl h
      refine ⟨h1, h2, ?_⟩
      intro F f hF hsf n s env x hTy hm hrep hx
      cases x <;> simp [valTy] at hx
      rename_i b
      have := (h3 F f hF hsf (n - 1) s env b hTy hm hrep).less (by omega : n + 1 - (d + 1) ≤ _)
      cases b <;> simpa using this
    · funext st; simp only [lowerStmt]; rfl
  | .ifElse c t e, hok => by
    simp only [Stmt.ok, Bool.and_eq_true, Expr.ok, decide_eq_true_eq] at hok
    obtain ⟨⟨⟨hty, hsm⟩, hok⟩, hok'⟩ := hok
    obtain ⟨d1, hT⟩ := stmt_ok o hord S rets hc t hok
    obtain ⟨d2, hE⟩ := stmt_ok o hord S rets hc e hok'
    replace hT := hT.le (le_max_left d1 d2)
    replace hE := hE.le (le_max_right d1 d2)
    refine ⟨max d1 d2 + 1, (expr_then loops_frame (o := o) hc hty hsm
      (ex := fun n x s => match x with
        | .bool true => Source.exec false calls (n - 1) t s
        | .bool false => Source.exec false calls (n - 1) e s
        | _ => .fault)
      (low := fun v st => do
        let (tb, st) := st.newBlock
        let (eb, st) := st.newBlock
        let st ← st.terminate (.If v tb eb)
        let st ← st.seal o tb
        let st ← st.seal o eb
        let st ← lowerStmt o S t (st.switch tb)
        let fs := st.finals
        let st ← lowerStmt o S e (st.switch eb)
        let fs := fs ++ st.finals
        if fs = [] then some st
        else do
          let (m, st) := st.newBlock
          let st ← st.joins fs m
          let st ← st.seal o m
          some (st.switch m)) ?_ ?_).lower ?_⟩
    · intro n s
      cases n with
      | zero => left; exact ⟨by omega, by simp only [Source.exec]⟩
      | succ n =>
        right; simp only [Source.exec, Nat.add_sub_cancel]
        rcases eval false calls s c with _ | (_ | _ | (_ | _) | _) <;> rfl
    · intro v st st' hg ho hl hv h
      obtain ⟨h1, h2, h3⟩ := ifElse_ok hord hT hE v st st' hg hl h
      refine ⟨h1, h2, ?_⟩
      intro F f hF hsf n s env x hTy hm hrep hx
      cases x <;> simp [valTy] at hx
      rename_i b
      have := (h3 F f hF hsf (n - 1) s env b hTy hm hrep).less (by omega : n + 1 - (max d1 d2 + 1) ≤ _)
      cases b <;> simpa using this
    · funext st; simp only [lowerStmt]; rfl
  | .block ss, hok => by
    obtain ⟨d, h⟩ := stmts_ok o hord S rets hc ss (by simpa [Stmt.ok] using hok)
    refine ⟨d + 1, StmtOkL.lower (low := lowerStmts o S ss) ?_ (by funext st; simp only [lowerStmt])⟩
    intro st st' hg ho hl hlow
    obtain ⟨h1, h2, h3⟩ := h st st' hg ho hl hlow
    refine ⟨h1, h2, fun F f hF hsf n s env hty hm => ?_⟩
    cases n with
    | zero => simp only [Source.exec]; exact fun k hk => absurd hk (by omega)
    | succ n => simp only [Source.exec]; exact (h3 F f hF hsf n s env hty hm).less (by omega)
  | .while c b, hok => by
    simp only [Stmt.ok, Bool.and_eq_true] at hok
    obtain ⟨d, h⟩ := stmt_ok o hord S rets hc b hok.2
    refine ⟨d + 1, (while_ok hord hc hok.1 h
      (exL := fun n σ => Source.exec false calls n (.while c b) σ) ?_ ?_).lower ?_⟩
    · intro s; simp only [Source.exec]
    · intro n s
      simp only [Source.exec]
      rcases eval false calls s c with _ | (_ | _ | (_ | _) | _) <;> rfl
    · funext st; simp only [lowerStmt]
  | .loop b, hok => by
    simp only [Stmt.ok] at hok
    obtain ⟨d, h⟩ := stmt_ok o hord S rets hc b hok
    refine ⟨d + 1, (loop_ok hord h
      (exL := fun n σ => Source.exec false calls n (.loop b) σ) ?_ ?_).lower ?_⟩
    · intro s; simp only [Source.exec]
    · intro n s
      simp only [Source.exec]
      cases Source.exec false calls n b s <;> rfl
    · funext st; simp only [lowerStmt]
  | .for i c s b, hok => by
    simp only [Stmt.ok, Bool.and_eq_true] at hok
    obtain ⟨⟨⟨⟨hi, hce⟩, hsim⟩, hs⟩, hb⟩ := hok
    obtain ⟨d1, h1⟩ := stmt_ok o hord S rets hc i hi
    obtain ⟨d2, h2⟩ := stmt_ok o hord S rets hc b hb
    refine ⟨max d1 d2 + 3, (seq_ok h1
      (for_ok hord hc hce (h2.le (Nat.le_succ d2)) ((simple_ok any_frame o S rets hc s hsim hs).le (by omega))
        (simple_normal s hsim)
        (exL := fun n σ => exec.forLoop (eval false calls · c) (Source.exec false calls n b)
          (Source.exec false calls n s) n σ) (fun _ _ => rfl)) ?_).lower ?_⟩
    · intro n σ
      cases n with
      | zero => left; exact ⟨by omega, by simp only [Source.exec]⟩
      | succ n =>
        right
        refine ⟨n, n, by omega, by omega, ?_⟩
        simp only [Source.exec]
        cases Source.exec false calls n i σ <;> rfl
    · funext st; simp only [lowerStmt]; rfl
  | .break, hok => by
    refine ⟨1, (jump_ok Prod.snd (.inr rfl) ?_).lower ?_⟩
    · intro n s
      cases n with
      | zero => left; exact ⟨by omega, by simp [Source.exec]⟩
      | succ n => right; right; simp only [Source.exec, and_self]
    · funext st; simp [lowerStmt]
  | .continue, hok => by
    refine ⟨1, (jump_ok Prod.fst (.inl rfl) ?_).lower ?_⟩
    · intro n s
      cases n with
      | zero => left; exact ⟨by omega, by simp [Source.exec]⟩
      | succ n => right; left; simp only [Source.exec, and_self]
    · funext st; simp [lowerStmt]
/-- Every well-typed list of statements is lowered correctly. -/
theorem stmts_ok (o : Opts) (hord : ∀ l, (o.order l).Perm l) (S : Sem) (rets : List Ty) (hc : CallsTyped S calls) :
    (ss : List Stmt) → Stmt.oks S rets ss = true →
      ∃ d, StmtOk S calls rets d (lowerStmts o S ss) (fun n σ => execList (Source.exec false calls n) ss σ)
  | [], _ => ⟨0, nil_ok.lower (by funext st; simp [lowerStmts])⟩
  | s :: ss, hok => by
    simp only [Stmt.oks, Bool.and_eq_true] at hok
    obtain ⟨d1, h1⟩ := stmt_ok o hord S rets hc s hok.1
    obtain ⟨d2, h2⟩ := stmts_ok o hord S rets hc ss hok.2
    refine ⟨max d1 d2, (seq_ok h1 h2 ?_).lower ?_⟩
    · intro n s'
      right
      exact ⟨n, n, by omega, by omega, by simp only [execList]; cases Source.exec false calls n s s' <;> rfl⟩
    · funext st; simp [lowerStmts]
end

end Lower
end CairoM
