import Verif.PipelineProps
import Verif.WasmPipelineSpec

/-!
# C85: running a compiled WebAssembly module gives what the module means
-/

namespace CairoM
namespace Wasm

open Mir Lang Pipeline
open Codegen hiding CallsOk Config
open Abi

/-- The integer a MIR value stands for. -/
def unword : Val → Option I32
  | .u32 n => if n < 2 ^ 32 then some (BitVec.ofNat 32 n) else none
  | _ => none

def unwords : List Val → Option (List I32)
  | [] => some []
  | x :: xs => (unword x).bind fun y => (unwords xs).map fun ys => y :: ys

theorem unword_word (x : I32) : unword (word x) = some x := by
  simp only [word, unword, if_pos x.isLt]
  simp

theorem word_unword {x : Val} {y : I32} (h : unword x = some y) : x = word y := by
  cases x <;> simp only [unword, reduceCtorEq] at h
  split_ifs at h with hn
  injection h with h
  subst h
  simp only [word, BitVec.toNat_ofNat]
  rw [Nat.mod_eq_of_lt hn]

theorem unwords_map : ∀ xs : List I32, unwords (xs.map word) = some xs
  | [] => rfl
  | x :: xs => by simp [unwords, unword_word, unwords_map xs]

theorem map_unwords : ∀ {xs : List Val} {ys : List I32}, unwords xs = some ys → xs = ys.map word
  | [], ys, h => by simp only [unwords, Option.some.injEq] at h; subst h; rfl
  | x :: xs, ys, h => by
    simp only [unwords, Option.bind_eq_some_iff, Option.map_eq_some_iff] at h
    obtain ⟨y, hy, zs, hzs, rfl⟩ := h
    rw [word_unword hy, map_unwords hzs]
    rfl

/-- The functions of a WebAssembly module as functions on MIR values. -/
def lift (calls : Calls) : Lang.Calls := fun c xs => (unwords xs).bind fun ys => (calls c ys).map fun zs => zs.map word

theorem lift_iff {calls : Calls} {c : ℕ} {xs ys : List Val} : lift calls c xs = some ys ↔
    ∃ as bs, xs = as.map word ∧ ys = bs.map word ∧ calls c as = some bs := by
  simp only [lift, Option.bind_eq_some_iff, Option.map_eq_some_iff]
  constructor
  · rintro ⟨as, h1, bs, h2, rfl⟩
    exact ⟨as, bs, map_unwords h1, rfl, h2⟩
  · rintro ⟨as, bs, rfl, rfl, h⟩
    exact ⟨as, unwords_map as, bs, h, rfl⟩

theorem words_typed : ∀ xs : List I32, List.Forall₂ Val.HasTy (xs.map word) (List.replicate xs.length .u32)
  | [] => .nil
  | x :: xs => .cons ⟨rfl, x.isLt⟩ (words_typed xs)

theorem Func.run_length {calls : Calls} {f : Func} {n : ℕ} {args vs : List I32} (h : f.run calls n args = some vs) :
    args.length = f.params.length ∧ vs.length = f.results.length := by
  unfold Func.run at h
  split at h
  · split_ifs at h with ha
    split at h
    · split_ifs at h with hv
      injection h with h
      subst h
      exact ⟨ha, hv⟩
    · cases h
  · cases h

theorem table_succ {p : Prog} {n d c : ℕ} {as bs : List I32} (h : p.table n (d + 1) c as = some bs) :
    ∃ f, p.fns[c]? = some f ∧ f.run (p.table n d) n as = some bs := by
  simp only [Prog.table] at h
  split at h
  · cases h
  · exact ⟨_, by assumption, h⟩

theorem table_length {p : Prog} {n : ℕ} : ∀ {d c : ℕ} {as bs : List I32}, p.table n d c as = some bs →
    ∃ f, p.fns[c]? = some f ∧ as.length = f.params.length ∧ bs.length = f.results.length
  | 0, _, _, _, h => by cases h
  | _ + 1, _, _, _, h => by
    obtain ⟨f, hf, hr⟩ := table_succ h
    exact ⟨f, hf, Func.run_length hr⟩

theorem lift_typed (p : Prog) (n d : ℕ) : Typed p.sem (lift (p.table n d)) := by
  intro c xs ys h
  obtain ⟨as, bs, rfl, rfl, h'⟩ := lift_iff.1 h
  obtain ⟨f, hf, -, hl⟩ := table_length h'
  refine ⟨_, by simp only [Prog.sem, hf]; rfl, ?_⟩
  simpa [hl] using words_typed bs

theorem lift_ok (p : Prog) (n d : ℕ) : CallsOk p.types (p.table n d) (lift (p.table n d)) := by
  intro c ps rs xs ys hm h
  obtain ⟨f, hf, -, hl⟩ := table_length h
  simp only [Prog.types, hf, Option.map_some, Option.some.injEq, Prod.mk.injEq] at hm
  obtain ⟨rfl, rfl⟩ := hm
  exact ⟨hl, lift_iff.2 ⟨xs, ys, rfl, rfl, h⟩⟩

theorem toFunctions_get {k : Config} {m : FuncTypes} : ∀ {fs : List Func} {md : Module}, toFunctions k m fs = some md →
    ∀ (c : ℕ) f, fs[c]? = some f → ∃ g, md[c]? = some g ∧ toFunction k m f = some g
  | [], _, _, c, f, hf => by simp at hf
  | f :: fs, md, h, c, f', hf => by
    simp only [toFunctions, Option.bind_eq_some_iff, Option.map_eq_some_iff] at h
    obtain ⟨g, hg, gs, hgs, rfl⟩ := h
    cases c with
    | zero =>
      simp only [List.getElem?_cons_zero, Option.some.injEq] at hf ⊢
      subst hf
      exact ⟨g, rfl, hg⟩
    | succ c => simpa using toFunctions_get hgs c f' (by simpa using hf)

theorem checkFn_sig {k : Config} {p : Prog} {f : Func} {g : Function}
    (h : p.checkFn k f = true) (hg : toFunction k p.types f = some g) :
    g.params.map g.types = ((List.replicate f.params.length Ty.u32).map Lower.mirTy).map some ∧
      g.returns.map g.types = ((List.replicate f.results.length Ty.u32).map Lower.mirTy).map some ∧ g.name = f.name := by
  simp only [toFunction] at hg
  split at hg
  · rename_i F hF
    simp only [Prog.checkFn, Bool.and_eq_true, hF, hg, signatureB] at h
    exact ⟨areTys_sound h.2.2.1.1, areTys_sound h.2.2.1.2, of_decide_eq_true h.2.2.2⟩
  · cases hg

theorem checkFn_run {k : Config} (hk : k.Ok) {p : Prog} {n d : ℕ} {f : Func} {g : Function}
    (h : p.checkFn k f = true) (hg : toFunction k p.types f = some g) {args vs : List I32}
    (hr : f.run (p.table n d) n args = some vs) :
    ∃ m, Lang.run (lift (p.table n d)) g m (args.map word) = .returned (vs.map word) := by
  simp only [toFunction] at hg
  split at hg
  swap
  · cases hg
  rename_i F hF
  simp only [Prog.checkFn, Bool.and_eq_true, hF] at h
  obtain ⟨hok, hp, -⟩ := h
  obtain ⟨N, hN⟩ := C84_lowering_partial (lift_ok p n d) hF hok hr
  have hargs := words_typed args
  rw [(Func.run_length hr).1] at hargs
  unfold passes at hg
  split_ifs at hg hp with ho
  · split at hg
    · injection hg with hg
      subst hg
      rename_i e
      exact standardB_run hk (lift_typed p n d) hp e hargs hN
    · cases hg
  · injection hg with hg
    subst hg
    obtain ⟨L, D, hphi⟩ := phiB_sound hp
    exact C57_function_partial _ _ L D hphi k.values hk.values _ _ _ hN

theorem table_lemma {k : Config} (hk : k.Ok) {p : Prog} (hch : p.check k = true) {md : Module}
    (hmd : p.toMir k = some md) (n : ℕ) : ∀ d : ℕ, Limit (fun m => callTable md m d) (lift (p.table n d)) := by
  simp only [Prog.check, Bool.and_eq_true, List.all_eq_true] at hch
  intro d
  induction d with
  | zero =>
    intro c xs ys h
    obtain ⟨as, bs, -, -, h⟩ := lift_iff.1 h
    cases h
  | succ d ih =>
    intro c xs ys h
    obtain ⟨as, bs, rfl, rfl, h'⟩ := lift_iff.1 h
    obtain ⟨f, hf, hr⟩ := table_succ h'
    obtain ⟨g, hg, htf⟩ := toFunctions_get hmd c f hf
    obtain ⟨m, hm⟩ := checkFn_run hk (hch.1 f (List.mem_of_getElem? hf)) htf hr
    obtain ⟨n0, hn⟩ := run_limit ih hm
    refine ⟨max n0 m, fun m' hle => ?_⟩
    simp only [callTable, hg]
    have h1 := hn m' (by omega)
    have h2 := Lower.run_more (n := m) (F := g) (args := as.map word) (calls := callTable md m' d) (by rw [h1]; simp) (m' - m)
    rw [h1, Nat.add_sub_cancel' (by omega)] at h2
    rw [h2]

theorem denoteZip_words : ∀ (xs : List I32) (n : ℕ), xs.length = n →
    denoteZip (xs.map fun x => .number x.toNat) (((List.replicate n Ty.u32).map Lower.mirTy).map abiType) =
      some ((xs.map word).map shown)
  | [], n, h => by subst h; rfl
  | x :: xs, n, h => by
    subst h
    have ih := denoteZip_words xs _ rfl
    have hx : Abi.denote (.number x.toNat) .u32 = some (.u32 x.toNat) := by
      have := x.isLt
      simp only [Abi.denote]
      rw [if_pos (by constructor <;> omega)]
      rfl
    simp only [List.length_cons, List.replicate_succ, List.map_cons, denoteZip, ih]
    show (Abi.denote _ .u32).bind _ = _
    rw [hx]
    rfl

theorem widths_words : ∀ xs : List I32, widths (xs.map word) = 2 * xs.length
  | [] => rfl
  | x :: xs => by
    have ih := widths_words xs
    simp only [widths, List.map_cons, List.sum_cons, List.length_cons] at ih ⊢
    rw [ih]
    show 2 + _ = _
    omega

theorem abi_words (n : ℕ) : ∀ ts : List ValType, ts.length = n →
    ((List.replicate n Ty.u32).map Lower.mirTy).map abiType = ts.map fun _ => .u32
  | [], h => by subst h; rfl
  | t :: ts, h => by
    subst h
    simp only [List.length_cons, List.replicate_succ, List.map_cons, abi_words _ ts rfl]
    rfl

/-- **C85 (partial).** A WebAssembly module that is lowered, run through the passes (`k.optimise` or not), translated to
machine code and linked computes what the module means: when calling function number `c` on some arguments gives `vs`
(with at most `d` nested calls), running the compiled program from the entry point of that function on these arguments ends
and returns `vs`. `Prog.check` and `fitsCheck` can be evaluated for the module; the two inequalities say that the program,
its arguments and `d` frames fit into the memory. Partial: the conditions in `Prog.check` exclude the modules for which the
single stages are wrong, and modules that use the linear memory (C86). -/
theorem C85_wasm_to_machine_partial (k : Config) (hk : k.Ok) (p : Prog) (hcheck : p.check k = true)
    (md : Module) (hmd : p.toMir k = some md) (S N : ℕ) (hfits : fitsCheck md S N = true) :
    ∃ exe, compileModule md = .ok exe ∧
      ∀ (c : ℕ) (f : Func), p.fns[c]? = some f → ∀ (n d : ℕ) (args vs : List I32), p.table n d c args = some vs →
        N + 2 * args.length + 2 * vs.length + 2 ≤ 2 ^ 27 → N + 2 * args.length + 2 * vs.length + 2 + d * S ≤ 2 ^ 28 →
        ∃ pc, exe.entries.lookup f.name = some pc ∧ ∀ maxSteps, 1 ≤ maxSteps → ∃ fuel out,
          runCairoProgram fuel maxSteps exe.program
            ⟨pc, f.params.map fun _ => .u32, f.results.map fun _ => .u32⟩ (args.map fun x => .number x.toNat) =
              some (.ok out) ∧
          out.returnValues = vs.map fun x => .u32 x.toNat := by
  obtain ⟨g, exe, hg, hc, hd, hS, hN⟩ := fitsCheck_spec hfits
  refine ⟨exe, hc, fun c f hf n d args vs hmean hroom hdeep => ?_⟩
  have htab := table_lemma hk hcheck hmd n d
  simp only [Prog.check, Bool.and_eq_true, List.all_eq_true, hmd] at hcheck
  obtain ⟨hfn, hmod⟩ := hcheck
  obtain ⟨hok, hnum, hpar⟩ := moduleB_sound hmod
  obtain ⟨G, hG, htf⟩ := toFunctions_get hmd c f hf
  obtain ⟨sp, sr, hname⟩ := checkFn_sig (hfn _ (List.mem_of_getElem? hf)) htf
  obtain ⟨n0, hn0⟩ := htab c (args.map word) (vs.map word) (lift_iff.2 ⟨args, vs, rfl, rfl, hmean⟩)
  obtain ⟨f', hf', ha, hv⟩ := table_length hmean
  rw [hf] at hf'
  injection hf' with hf'
  subst hf'
  have hargs := words_typed args
  rw [ha] at hargs
  have := C67_program_partial md exe hc g hg hd hok hnum hpar c G hG (args.map word) (vs.map word) n0 d (hn0 n0 le_rfl)
    (forall₂_types sp (forall₂_mirTy.2 hargs)) _ _ sp sr (args.map fun x => .number x.toNat) (denoteZip_words _ _ ha) S hS
    (by rw [widths_words, widths_words]; omega) (by rw [widths_words, widths_words]; omega)
  rw [hname, abi_words _ _ rfl, abi_words _ _ rfl] at this
  simpa [List.map_map, Function.comp_def, word, shown] using this

end Wasm
end CairoM
