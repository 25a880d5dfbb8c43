import Verif.Cli

/-!
# Properties C19, C20: signed integers and command-line syntax
-/

namespace CairoM

/-- C19: the result is the field element congruent to the integer (canonical because `ZMod` values are). -/
theorem C19_m31_from_i64 (n : ℤ) : m31FromI64 n = (n : M31) := by
  unfold m31FromI64
  have hp : (0 : ℤ) < (P : ℤ) := by unfold P; norm_num
  have h1 := Int.tmod_add_mul_tdiv n P
  have h2 := Int.tmod_lt_of_pos n hp
  have h3 : -(P : ℤ) < Int.tmod n P := Int.lt_tmod_of_pos n hp
  have key : ∀ m : ℤ, 0 ≤ m → (((m.toNat : ℕ) : M31)) = (m : M31) := by
    intro m hm
    have : ((m.toNat : ℕ) : ℤ) = m := Int.toNat_of_nonneg hm
    calc ((m.toNat : ℕ) : M31) = (((m.toNat : ℕ) : ℤ) : M31) := by push_cast; rfl
      _ = (m : M31) := by rw [this]
  have hP0 : (((P : ℕ) : ℤ) : M31) = 0 := by rw [Int.cast_natCast]; exact ZMod.natCast_self P
  have hcong : ((Int.tmod n P : ℤ) : M31) = (n : M31) := by
    conv_rhs => rw [← h1]
    rw [Int.cast_add, Int.cast_mul, hP0, zero_mul, add_zero]
  dsimp only
  by_cases h : Int.tmod n P < 0
  · rw [if_pos h, key _ (by omega)]
    rw [Int.cast_add, hP0, add_zero, hcong]
  · rw [if_neg h, key _ (by omega), hcong]

/-- C19 in integers: the representative is below the modulus and differs from `n` by a multiple of it. -/
theorem C19_congruent (n : ℤ) :
    (m31FromI64 n).val < 2 ^ 31 - 1 ∧ ((m31FromI64 n).val : ℤ) ≡ n [ZMOD (2 ^ 31 - 1)] := by
  have hP : P = 2 ^ 31 - 1 := rfl
  refine ⟨by rw [← hP]; exact ZMod.val_lt _, ?_⟩
  have h : (((m31FromI64 n).val : ℤ) : M31) = (n : M31) := by
    rw [Int.cast_natCast, ZMod.natCast_zmod_val, C19_m31_from_i64]
  have := (ZMod.intCast_eq_intCast_iff _ _ P).1 h
  exact_mod_cast this

example : m31FromI64 (-9223372036854775808) = 2147483645 := by decide

namespace Cli

/-! ### C20: the grammar (specification) -/

/-- Any amount of white space: ASCII or Latin-1. -/
def White (w : List ℕ) : Prop := ∀ b ∈ w, b ∈ [9, 10, 11, 12, 13, 32, 133, 160]

/-- A string of decimal digits denoting `n`. -/
inductive Digits : List ℕ → ℕ → Prop
  | one (d : ℕ) (hd : d < 10) : Digits [48 + d] d
  | snoc {s n} (h : Digits s n) (d : ℕ) (hd : d < 10) : Digits (s ++ [48 + d]) (10 * n + d)

mutual
/-- `Value v s`: the string `s` (without surrounding white space) denotes `v`. -/
inductive Value : InputValue → List ℕ → Prop
  | nat {s n} (h : Digits s n) (hr : n < 2 ^ 63) : Value (.number n) s
  | neg {s n} (h : Digits s n) (hr : n ≤ 2 ^ 63) : Value (.number (-n)) (45 :: s)
  | tt : Value (.bool true) [116, 114, 117, 101]
  | ff : Value (.bool false) [102, 97, 108, 115, 101]
  | array {vs s} (h : Body vs s) : Value (.list vs) (91 :: s ++ [93])
  | tuple {vs s} (h : Body vs s) : Value (.list vs) (40 :: s ++ [41])
  | struct {vs s} (h : Body vs s) : Value (.struct vs) (123 :: s ++ [125])

/-- The inside of a pair of delimiters. -/
inductive Body : List InputValue → List ℕ → Prop
  | empty {w} (h : White w) : Body [] w
  | items {vs s} (h : Items vs s) : Body vs s

/-- One or more values separated by commas, white space anywhere between tokens. -/
inductive Items : List InputValue → List ℕ → Prop
  | last {v s w w'} (h : Value v s) (hw : White w) (hw' : White w') : Items [v] (w ++ s ++ w')
  | more {v s w w' vs t} (h : Value v s) (hw : White w) (hw' : White w') (ht : Items vs t) :
      Items (v :: vs) (w ++ s ++ w' ++ 44 :: t)
end

/-! ### Lemmas -/

theorem mem_takeWhile_imp {p : ℕ → Bool} {s : List ℕ} {b : ℕ} (h : b ∈ s.takeWhile p) : p b = true := by
  have := List.all_takeWhile (p := p) (l := s)
  exact List.all_eq_true.1 this b h

theorem isWs_iff (b : ℕ) : isWs b = true ↔ b ∈ [9, 10, 11, 12, 13, 32, 133, 160] := by
  simp [isWs]; omega

theorem skipWs_white {w : List ℕ} (h : White w) (r : List ℕ) : skipWs (w ++ r) = skipWs r := by
  induction w with
  | nil => rfl
  | cons b w ih =>
    have hb : isWs b = true := (isWs_iff b).2 (h b (by simp))
    unfold skipWs at *
    rw [List.cons_append, List.dropWhile_cons_of_pos hb]
    exact ih fun x hx => h x (List.mem_cons_of_mem _ hx)

theorem skipWs_split (s : List ℕ) : ∃ w, White w ∧ s = w ++ skipWs s := by
  refine ⟨s.takeWhile isWs, ?_, (List.takeWhile_append_dropWhile).symm⟩
  intro b hb
  exact (isWs_iff b).1 (mem_takeWhile_imp hb)

theorem skipWs_cons {c : ℕ} {r : List ℕ} (h : isWs c = false) : skipWs (c :: r) = c :: r := by
  unfold skipWs; rw [List.dropWhile_cons_of_neg (by simp [h])]

theorem skipWs_length (s : List ℕ) : (skipWs s).length ≤ s.length := by
  unfold skipWs; exact (List.dropWhile_suffix _).length_le

theorem skipWs_idem (s : List ℕ) : skipWs (skipWs s) = skipWs s := by
  unfold skipWs
  induction s with
  | nil => rfl
  | cons b s ih =>
    by_cases hb : isWs b = true
    · rw [List.dropWhile_cons_of_pos hb]; exact ih
    · rw [List.dropWhile_cons_of_neg hb, List.dropWhile_cons_of_neg hb]

theorem skipWs_head {s : List ℕ} {c r} (h : skipWs s = c :: r) : isWs c = false := by
  unfold skipWs at h
  have := List.head?_dropWhile_not isWs s
  rw [h] at this
  simpa using this

theorem digits_iff (s : List ℕ) (n : ℕ) :
    Digits s n ↔ s ≠ [] ∧ (∀ b ∈ s, isDigit b = true) ∧ decVal s = n := by
  constructor
  · intro h
    induction h with
    | one d hd => simp [isDigit, decVal]; omega
    | @snoc s n h d hd ih =>
      refine ⟨by simp, ?_, ?_⟩
      · intro b hb
        rcases List.mem_append.1 hb with hb | hb
        · exact ih.2.1 b hb
        · rw [List.mem_singleton.1 hb]; simp [isDigit]; omega
      · have := ih.2.2
        simp only [decVal, List.foldl_append, List.foldl_cons, List.foldl_nil] at this ⊢
        rw [this]; omega
  · rintro ⟨h1, h2, h3⟩
    subst h3
    induction s using List.reverseRecOn with
    | nil => exact absurd rfl h1
    | append_singleton s b ih =>
      have hb := h2 b (by simp)
      simp only [isDigit, Bool.and_eq_true, decide_eq_true_eq] at hb
      obtain ⟨d, rfl⟩ : ∃ d, b = 48 + d := ⟨b - 48, by omega⟩
      by_cases hs : s = []
      · subst hs
        have : decVal ([] ++ [48 + d]) = d := by simp [decVal]
        rw [this]
        exact .one d (by omega)
      · have e : decVal (s ++ [48 + d]) = 10 * decVal s + d := by
          simp only [decVal, List.foldl_append, List.foldl_cons, List.foldl_nil]; omega
        rw [e]
        exact .snoc (ih hs fun x hx => h2 x (by simp [hx])) d (by omega)

theorem takeWhile_digits {ds r : List ℕ} (h : ∀ b ∈ ds, isDigit b = true)
    (hr : ∀ c ∈ r.head?, isDigit c = false) :
    (ds ++ r).takeWhile isDigit = ds ∧ (ds ++ r).dropWhile isDigit = r := by
  induction ds with
  | nil =>
    cases r with
    | nil => exact ⟨rfl, rfl⟩
    | cons c r =>
      have := hr c rfl
      simp [this]
  | cons b ds ih =>
    have hb := h b (by simp)
    have := ih fun x hx => h x (List.mem_cons_of_mem _ hx)
    simp [hb, this.1, this.2]

theorem digit_ne_minus {c : ℕ} (h : isDigit c = true) : c ≠ 45 := by
  rintro rfl; simp [isDigit] at h

/-- Completeness of number parsing. -/
theorem parseNumber_nat {s : List ℕ} {n : ℕ} (h : Digits s n) (hr : n < 2 ^ 63) {r : List ℕ}
    (hn : ∀ c ∈ r.head?, isDigit c = false) : parseNumber (s ++ r) = .ok (.number n, r) := by
  obtain ⟨h1, h2, h3⟩ := (digits_iff s n).1 h
  obtain ⟨t1, t2⟩ := takeWhile_digits h2 hn
  have hhead : (s ++ r).head? ≠ some 45 := by
    cases s with
    | nil => exact absurd rfl h1
    | cons c s => simpa using digit_ne_minus (h2 c (by simp))
  unfold parseNumber
  simp only [hhead, if_false]
  rw [t1, t2, if_neg h1, h3, if_pos (by constructor <;> omega)]

theorem parseNumber_neg {s : List ℕ} {n : ℕ} (h : Digits s n) (hr : n ≤ 2 ^ 63) {r : List ℕ}
    (hn : ∀ c ∈ r.head?, isDigit c = false) : parseNumber (45 :: s ++ r) = .ok (.number (-n), r) := by
  obtain ⟨h1, h2, h3⟩ := (digits_iff s n).1 h
  obtain ⟨t1, t2⟩ := takeWhile_digits h2 hn
  unfold parseNumber
  simp only [List.cons_append, List.head?_cons, if_true, List.tail_cons]
  rw [t1, t2, if_neg h1, h3, if_pos (by constructor <;> omega)]

theorem parseNumber_inv {s r : List ℕ} {v : InputValue} (h : parseNumber s = .ok (v, r)) :
    ∃ t, s = t ++ r ∧ Value v t ∧ t ≠ [] := by
  unfold parseNumber at h
  dsimp only at h
  by_cases hneg : s.head? = some 45
  · cases s with
    | nil => cases hneg
    | cons c s =>
      simp only [List.head?_cons, Option.some.injEq] at hneg
      subst hneg
      simp only [List.head?_cons, if_true, List.tail_cons] at h
      by_cases hds : s.takeWhile isDigit = []
      · rw [if_pos hds] at h; cases h
      · rw [if_neg hds] at h
        split_ifs at h with hr
        injection h with h
        injection h with h1 h2
        subst h1 h2
        refine ⟨45 :: s.takeWhile isDigit, by simp [List.takeWhile_append_dropWhile], ?_, by simp⟩
        refine .neg ((digits_iff _ _).2 ⟨hds, fun b hb => mem_takeWhile_imp hb, rfl⟩) ?_
        omega
  · simp only [if_neg hneg] at h
    by_cases hds : s.takeWhile isDigit = []
    · rw [if_pos hds] at h; cases h
    · rw [if_neg hds] at h
      split_ifs at h with hr
      injection h with h
      injection h with h1 h2
      subst h1 h2
      refine ⟨s.takeWhile isDigit, by simp [List.takeWhile_append_dropWhile], ?_, hds⟩
      refine .nat ((digits_iff _ _).2 ⟨hds, fun b hb => mem_takeWhile_imp hb, rfl⟩) ?_
      omega

theorem parseBool_inv {s r : List ℕ} {v : InputValue} (h : parseBool s = .ok (v, r)) :
    ∃ t, s = t ++ r ∧ Value v t ∧ t ≠ [] := by
  unfold parseBool at h
  split_ifs at h with h1 h2
  · injection h with h
    injection h with e1 e2
    subst e1 e2
    refine ⟨_, (List.take_append_drop 4 s).symm, ?_, ?_⟩
    · rw [h1]; exact .tt
    · rw [h1]; simp
  · injection h with h
    injection h with e1 e2
    subst e1 e2
    refine ⟨_, (List.take_append_drop 5 s).symm, ?_, ?_⟩
    · rw [h2]; exact .ff
    · rw [h2]; simp

/-- The first character of a value. -/
theorem value_head {v : InputValue} {s : List ℕ} (h : Value v s) :
    ∃ c t, s = c :: t ∧ isWs c = false ∧ c ≠ 44 ∧ c ≠ 93 ∧ c ≠ 41 ∧ c ≠ 125 := by
  cases h with
  | nat h hr =>
    obtain ⟨h1, h2, _⟩ := (digits_iff _ _).1 h
    cases s with
    | nil => exact absurd rfl h1
    | cons c t =>
      have := h2 c (by simp)
      simp only [isDigit, Bool.and_eq_true, decide_eq_true_eq] at this
      refine ⟨c, t, rfl, ?_, by omega, by omega, by omega, by omega⟩
      cases hw : isWs c with
      | false => rfl
      | true => have := (isWs_iff c).1 hw; simp at this; omega
  | neg h hr => exact ⟨45, _, rfl, by decide, by decide, by decide, by decide, by decide⟩
  | tt => exact ⟨116, _, rfl, by decide, by decide, by decide, by decide, by decide⟩
  | ff => exact ⟨102, _, rfl, by decide, by decide, by decide, by decide, by decide⟩
  | array h => exact ⟨91, _, rfl, by decide, by decide, by decide, by decide, by decide⟩
  | tuple h => exact ⟨40, _, rfl, by decide, by decide, by decide, by decide, by decide⟩
  | struct h => exact ⟨123, _, rfl, by decide, by decide, by decide, by decide, by decide⟩

theorem white_not_digit {w r : List ℕ} (hw : White w) (hr : ∀ c ∈ r.head?, isDigit c = false) :
    ∀ c ∈ (w ++ r).head?, isDigit c = false := by
  cases w with
  | nil => exact hr
  | cons b w =>
    intro c hc
    simp only [List.cons_append, List.head?_cons, Option.mem_def, Option.some.injEq] at hc
    subst hc
    have := hw b (by simp)
    simp at this
    simp [isDigit]; omega

theorem delim_not_digit (c : ℕ) (hc : c = 44 ∨ c = 93 ∨ c = 41 ∨ c = 125) (r : List ℕ) :
    ∀ x ∈ (c :: r).head?, isDigit x = false := by
  intro x hx
  simp only [List.head?_cons, Option.mem_def, Option.some.injEq] at hx
  subst hx
  rcases hc with rfl | rfl | rfl | rfl <;> decide

theorem isWs_delim {c : ℕ} (hc : c = 44 ∨ c = 93 ∨ c = 41 ∨ c = 125) : isWs c = false := by
  rcases hc with rfl | rfl | rfl | rfl <;> decide

theorem items_head {vs : List InputValue} {s : List ℕ} (h : Items vs s) :
    ∃ w c t, White w ∧ s = w ++ c :: t ∧ isWs c = false ∧ c ≠ 44 ∧ c ≠ 93 ∧ c ≠ 41 ∧ c ≠ 125 := by
  cases h with
  | @last v s w w' h hw hw' =>
    obtain ⟨c, t, rfl, hc⟩ := value_head h
    refine ⟨w, c, t ++ w', hw, ?_, hc⟩
    simp only [List.append_assoc, List.cons_append]
  | @more v s w w' vs u h hw hw' ht =>
    obtain ⟨c, t, rfl, hc⟩ := value_head h
    refine ⟨w, c, t ++ (w' ++ 44 :: u), hw, ?_, hc⟩
    simp only [List.append_assoc, List.cons_append]

/-- Completeness of parsing, with enough fuel. The three parts go together by induction on the fuel. -/
theorem complete (f : ℕ) :
    (∀ v s w r, Value v s → White w → (∀ c ∈ r.head?, isDigit c = false) → 3 * s.length ≤ f →
      parseValue f (w ++ s ++ r) = .ok (v, r)) ∧
    (∀ vs s r close, Body vs s → (close = 93 ∨ close = 41 ∨ close = 125) → 3 * s.length + 2 ≤ f →
      parseDelimited f close (s ++ close :: r) = .ok (vs, r)) ∧
    (∀ vs s r close, Items vs s → (close = 93 ∨ close = 41 ∨ close = 125) → 3 * s.length + 1 ≤ f →
      ∀ w, White w → parseItems f close (w ++ s ++ close :: r) = .ok (vs, r)) := by
  induction f with
  | zero =>
    refine ⟨?_, ?_, ?_⟩
    · intro v s w r h _ _ hf
      obtain ⟨c, t, rfl, _⟩ := value_head h
      simp at hf
    · intro vs s r close _ _ hf; omega
    · intro vs s r close _ _ hf; omega
  | succ f ih =>
    obtain ⟨ih1, ih2, ih3⟩ := ih
    refine ⟨?_, ?_, ?_⟩
    · intro v s w r h hw hr hf
      unfold parseValue
      obtain ⟨c, t, hst, hc, _⟩ := value_head h
      have hsk : skipWs (w ++ s ++ r) = s ++ r := by
        rw [List.append_assoc, skipWs_white hw, hst, List.cons_append, skipWs_cons hc]
      rw [hsk]
      cases h with
      | nat h hn =>
        obtain ⟨h1, h2, _⟩ := (digits_iff _ _).1 h
        have hd := h2 c (by rw [hst]; simp)
        have hd' := hd
        simp only [isDigit, Bool.and_eq_true, decide_eq_true_eq] at hd'
        have e := parseNumber_nat h hn hr
        rw [hst, List.cons_append] at e ⊢
        simp only
        rw [if_neg (by omega), if_neg (by omega), if_neg (by omega), if_neg (by omega), if_pos (Or.inr hd)]
        exact e
      | neg h hn =>
        have e := parseNumber_neg h hn hr
        rw [List.cons_append] at e ⊢
        simpa using e
      | tt => simp [parseBool]
      | ff => simp [parseBool]
      | @array vs s h =>
        have := ih2 vs s r 93 h (Or.inl rfl) (by simp at hf; omega)
        simp [this, Except.map]
      | @tuple vs s h =>
        have := ih2 vs s r 41 h (Or.inr (Or.inl rfl)) (by simp at hf; omega)
        simp [this, Except.map]
      | @struct vs s h =>
        have := ih2 vs s r 125 h (Or.inr (Or.inr rfl)) (by simp at hf; omega)
        simp [this, Except.map]
    · intro vs s r close h hcl hf
      unfold parseDelimited
      have hcw : isWs close = false := isWs_delim (by tauto)
      cases h with
      | empty hw =>
        rw [skipWs_white hw, skipWs_cons hcw]
        simp
      | items h =>
        obtain ⟨w, c, t, hw, hst, hc, _, n2, n3, n4⟩ := items_head h
        have hsk : skipWs (s ++ close :: r) = c :: t ++ close :: r := by
          rw [hst, List.append_assoc, skipWs_white hw, List.cons_append, skipWs_cons hc]
        have hne : (skipWs (s ++ close :: r)).head? ≠ some close := by
          rw [hsk]
          simp only [List.cons_append, List.head?_cons, ne_eq, Option.some.injEq]
          rcases hcl with rfl | rfl | rfl <;> assumption
        rw [if_neg hne]
        -- parseItems starts with the same skipping
        have key : ∀ u, parseItems f close (skipWs u) = parseItems f close u := by
          intro u
          cases f with
          | zero => rfl
          | succ f =>
            unfold parseItems
            have : parseValue f (skipWs u) = parseValue f u := by
              cases f with
              | zero => rfl
              | succ f => unfold parseValue; rw [skipWs_idem]
            rw [this]
        rw [key]
        have := ih3 vs s r close h hcl (by omega) [] (by intro b hb; cases hb)
        simpa using this
    · intro vs s r close h hcl hf w0 hw0
      unfold parseItems
      have key : ∀ u, parseItems f close (skipWs u) = parseItems f close u := by
        intro u
        cases f with
        | zero => rfl
        | succ f =>
          unfold parseItems
          have : parseValue f (skipWs u) = parseValue f u := by
            cases f with
            | zero => rfl
            | succ f => unfold parseValue; rw [skipWs_idem]
          rw [this]
      have wapp : ∀ {a b : List ℕ}, White a → White b → White (a ++ b) := by
        intro a b ha hb x hx
        rcases List.mem_append.1 hx with h | h
        · exact ha x h
        · exact hb x h
      cases h with
      | @last v s w w' h hw hw' =>
        have e := ih1 v s (w0 ++ w) (w' ++ close :: r) h (wapp hw0 hw)
          (white_not_digit hw' (delim_not_digit close (by tauto) r)) (by simp at hf; omega)
        have e2 : w0 ++ (w ++ s ++ w') ++ close :: r = w0 ++ w ++ s ++ (w' ++ close :: r) := by
          simp only [List.append_assoc]
        rw [e2, e]
        simp only
        rw [skipWs_white hw', skipWs_cons (isWs_delim (by tauto))]
        simp only
        rw [if_neg (by omega)]
        simp
      | @more v s w w' vs t h hw hw' ht =>
        have e := ih1 v s (w0 ++ w) (w' ++ 44 :: (t ++ close :: r)) h (wapp hw0 hw)
          (white_not_digit hw' (delim_not_digit 44 (by tauto) _)) (by simp at hf; omega)
        have e2 : w0 ++ (w ++ s ++ w' ++ 44 :: t) ++ close :: r =
            w0 ++ w ++ s ++ (w' ++ 44 :: (t ++ close :: r)) := by
          simp only [List.append_assoc, List.cons_append]
        rw [e2, e]
        simp only
        rw [skipWs_white hw', skipWs_cons (isWs_delim (by tauto))]
        simp only [if_true]
        rw [key]
        have := ih3 vs t r close ht hcl (by simp at hf; omega) [] (by intro b hb; cases hb)
        simp only [List.nil_append] at this
        rw [this]

/-- Soundness of parsing. -/
theorem sound (f : ℕ) :
    (∀ s v r, parseValue f s = .ok (v, r) → ∃ w t, White w ∧ s = w ++ t ++ r ∧ Value v t) ∧
    (∀ close s vs r, parseDelimited f close s = .ok (vs, r) → ∃ t, s = t ++ close :: r ∧ Body vs t) ∧
    (∀ close s vs r, parseItems f close s = .ok (vs, r) → ∃ t, s = t ++ close :: r ∧ Items vs t) := by
  induction f with
  | zero =>
    refine ⟨?_, ?_, ?_⟩
    · intro s v r h; simp [parseValue] at h
    · intro close s vs r h; simp [parseDelimited] at h
    · intro close s vs r h; simp [parseItems] at h
  | succ f ih =>
    obtain ⟨ih1, ih2, ih3⟩ := ih
    refine ⟨?_, ?_, ?_⟩
    · intro s v r h
      unfold parseValue at h
      obtain ⟨w, hw, hs⟩ := skipWs_split s
      cases hsk : skipWs s with
      | nil => rw [hsk] at h; cases h
      | cons c u =>
        rw [hsk] at h hs
        simp only at h
        have delim : ∀ (close : ℕ) (mk : List InputValue → InputValue) (opn : ℕ),
            (∀ vs t, Body vs t → Value (mk vs) (opn :: t ++ [close])) → c = opn →
            (parseDelimited f close u).map (fun x => (mk x.1, x.2)) = .ok (v, r) →
            ∃ w t, White w ∧ s = w ++ t ++ r ∧ Value v t := by
          intro close mk opn hmk hc hp
          cases hd : parseDelimited f close u with
          | error e => rw [hd] at hp; cases hp
          | ok x =>
            rw [hd] at hp
            injection hp with hp
            injection hp with e1 e2
            obtain ⟨t, ht, hb⟩ := ih2 close u x.1 x.2 hd
            refine ⟨w, opn :: t ++ [close], hw, ?_, ?_⟩
            · rw [hs, hc, ht, ← e2]; simp
            · rw [← e1]; exact hmk _ _ hb
        split_ifs at h with h1 h2 h3 h4 h5
        · exact delim 93 .list 91 (fun _ _ h => .array h) h1 h
        · exact delim 41 .list 40 (fun _ _ h => .tuple h) h2 h
        · exact delim 125 .struct 123 (fun _ _ h => .struct h) h3 h
        · obtain ⟨t, ht, hv, _⟩ := parseBool_inv h
          exact ⟨w, t, hw, by rw [hs, ht]; simp, hv⟩
        · obtain ⟨t, ht, hv, _⟩ := parseNumber_inv h
          exact ⟨w, t, hw, by rw [hs, ht]; simp, hv⟩
    · intro close s vs r h
      unfold parseDelimited at h
      obtain ⟨w, hw, hs⟩ := skipWs_split s
      by_cases hc : (skipWs s).head? = some close
      · rw [if_pos hc] at h
        injection h with h
        injection h with e1 e2
        subst e1 e2
        cases hsk : skipWs s with
        | nil => rw [hsk] at hc; cases hc
        | cons c u =>
          rw [hsk] at hc hs
          simp only [List.head?_cons, Option.some.injEq] at hc
          subst hc
          exact ⟨w, by simpa using hs, .empty hw⟩
      · rw [if_neg hc] at h
        obtain ⟨t, ht, hi⟩ := ih3 close _ vs r h
        refine ⟨w ++ t, by rw [hs, ht]; simp, .items ?_⟩
        have wapp : ∀ {a b : List ℕ}, White a → White b → White (a ++ b) := by
          intro a b ha hb x hx
          rcases List.mem_append.1 hx with h | h
          · exact ha x h
          · exact hb x h
        cases hi with
        | @last v s1 w1 w2 hv hw1 hw2 =>
          have := Items.last hv (wapp hw hw1) hw2
          simpa using this
        | @more v s1 w1 w2 vs1 t1 hv hw1 hw2 ht1 =>
          have := Items.more hv (wapp hw hw1) hw2 ht1
          simpa using this
    · intro close s vs r h
      unfold parseItems at h
      cases hp : parseValue f s with
      | error e => rw [hp] at h; cases h
      | ok x =>
        obtain ⟨v, u⟩ := x
        rw [hp] at h
        simp only at h
        obtain ⟨w, t, hw, hs, hv⟩ := ih1 s v u hp
        obtain ⟨w', hw', hu⟩ := skipWs_split u
        cases hsk : skipWs u with
        | nil => rw [hsk] at h; cases h
        | cons c u' =>
          rw [hsk] at h hu
          simp only at h
          by_cases hc : c = 44
          · rw [if_pos hc] at h
            cases hq : parseItems f close (skipWs u') with
            | error e => rw [hq] at h; cases h
            | ok y =>
              obtain ⟨vs', r'⟩ := y
              rw [hq] at h
              injection h with h
              injection h with e1 e2
              subst e1 e2
              obtain ⟨t', ht', hi⟩ := ih3 close _ vs' r' hq
              obtain ⟨w2, hw2, hu2⟩ := skipWs_split u'
              have wapp : ∀ {a b : List ℕ}, White a → White b → White (a ++ b) := by
                intro a b ha hb x hx
                rcases List.mem_append.1 hx with h | h
                · exact ha x h
                · exact hb x h
              refine ⟨w ++ t ++ w' ++ 44 :: (w2 ++ t'), ?_, ?_⟩
              · rw [hs, hu, hc, hu2, ht']; simp
              · refine .more hv hw hw' ?_
                cases hi with
                | @last v s1 w1 w2 hv hw1 hw2' =>
                  have := Items.last hv (wapp hw2 hw1) hw2'
                  simpa using this
                | @more v s1 w1 w2 vs1 t1 hv hw1 hw2' ht1 =>
                  have := Items.more hv (wapp hw2 hw1) hw2' ht1
                  simpa using this
          · rw [if_neg hc] at h
            by_cases hcl : c = close
            · rw [if_pos hcl] at h
              injection h with h
              injection h with e1 e2
              subst e1 e2 hcl
              exact ⟨w ++ t ++ w', by rw [hs, hu]; simp, .last hv hw hw'⟩
            · rw [if_neg hcl] at h; cases h

/-- Values are consumed: the rest is strictly shorter. -/
theorem consumes {f : ℕ} {s r : List ℕ} {v : InputValue} (h : parseValue f s = .ok (v, r)) :
    r.length < s.length := by
  obtain ⟨w, t, _, hs, hv⟩ := (sound f).1 s v r h
  obtain ⟨c, t', rfl, _⟩ := value_head hv
  rw [hs]; simp; omega

theorem enough (f : ℕ) :
    (∀ s, 3 * s.length + 1 ≤ f → parseValue f s ≠ .error .outOfFuel) ∧
    (∀ close s, 3 * s.length + 3 ≤ f → parseDelimited f close s ≠ .error .outOfFuel) ∧
    (∀ close s, 3 * s.length + 2 ≤ f → parseItems f close s ≠ .error .outOfFuel) := by
  induction f with
  | zero => exact ⟨fun _ h => by omega, fun _ _ h => by omega, fun _ _ h => by omega⟩
  | succ f ih =>
    obtain ⟨ih1, ih2, ih3⟩ := ih
    refine ⟨?_, ?_, ?_⟩
    · intro s hf h
      unfold parseValue at h
      have hl := skipWs_length s
      cases hsk : skipWs s with
      | nil => rw [hsk] at h; cases h
      | cons c u =>
        rw [hsk] at h hl
        simp only [List.length_cons] at hl
        simp only at h
        have delim : ∀ (close : ℕ) (mk : List InputValue → InputValue),
            (parseDelimited f close u).map (fun x => (mk x.1, x.2)) = .error PErr.outOfFuel → False := by
          intro close mk hp
          cases hd : parseDelimited f close u with
          | error e =>
            rw [hd] at hp
            injection hp with hp
            exact ih2 close u (by omega) (by rw [hd, hp])
          | ok x => rw [hd] at hp; cases hp
        split_ifs at h
        · exact delim _ _ h
        · exact delim _ _ h
        · exact delim _ _ h
        · unfold parseBool at h; split_ifs at h; simp at h
        · unfold parseNumber at h
          dsimp only at h
          split_ifs at h <;> simp at h
        · simp at h
    · intro close s hf h
      unfold parseDelimited at h
      have hl := skipWs_length s
      split_ifs at h
      exact ih3 close _ (by omega) h
    · intro close s hf h
      unfold parseItems at h
      cases hp : parseValue f s with
      | error e =>
        rw [hp] at h
        injection h with h
        exact ih1 s (by omega) (by rw [hp, h])
      | ok x =>
        obtain ⟨v, u⟩ := x
        rw [hp] at h
        simp only at h
        have hc := consumes hp
        have hl := skipWs_length u
        cases hsk : skipWs u with
        | nil => rw [hsk] at h; cases h
        | cons c u' =>
          rw [hsk] at h hl
          simp only [List.length_cons] at hl
          simp only at h
          have hl' := skipWs_length u'
          split_ifs at h with e1 e2
          rotate_left
          · simp at h
          cases hq : parseItems f close (skipWs u') with
          | error e =>
            rw [hq] at h
            injection h with h
            exact ih3 close (skipWs u') (by omega) (by rw [hq, h])
          | ok y => rw [hq] at h; cases h

/-! ### C20 -/

/-- C20: the parser accepts exactly the documented syntax, with any white space around tokens, and returns
the denoted value. In particular it never accepts trailing characters. -/
theorem C20_parse_iff (s : List ℕ) (v : InputValue) :
    parse s = .ok v ↔ ∃ w t w', White w ∧ White w' ∧ s = w ++ t ++ w' ∧ Value v t := by
  constructor
  · intro h
    unfold parse at h
    cases hp : parseValue (3 * s.length + 1) s with
    | error e => rw [hp] at h; cases h
    | ok x =>
      obtain ⟨v', r⟩ := x
      rw [hp] at h
      simp only at h
      split_ifs at h with hr
      injection h with h
      subst h
      obtain ⟨w, t, hw, hs, hv⟩ := (sound _).1 s v' r hp
      obtain ⟨w', hw', hr'⟩ := skipWs_split r
      rw [hr, List.append_nil] at hr'
      exact ⟨w, t, r, hw, by rw [hr']; exact hw', hs, hv⟩
  · rintro ⟨w, t, w', hw, hw', rfl, hv⟩
    unfold parse
    have h1 : ∀ c ∈ w'.head?, isDigit c = false := by
      have := white_not_digit (r := []) hw' (by simp)
      rwa [List.append_nil] at this
    have := (complete (3 * (w ++ t ++ w').length + 1)).1 v t w w' hv hw h1 (by simp; omega)
    rw [this]
    have hsk : skipWs w' = [] := by
      have := skipWs_white hw' []
      rwa [List.append_nil] at this
    simp [hsk]

/-- C20: parsing ends on every input (the recursion bound is never the reason for an error). -/
theorem C20_terminates (s : List ℕ) : parse s ≠ .error .outOfFuel := by
  unfold parse
  have := (enough (3 * s.length + 1)).1 s le_rfl
  intro h
  cases hp : parseValue (3 * s.length + 1) s with
  | error e =>
    rw [hp] at h
    injection h with h
    exact this (by rw [hp, h])
  | ok x =>
    obtain ⟨v, r⟩ := x
    rw [hp] at h
    simp only at h
    split_ifs at h
    simp at h

/-! A canonical printer, and the round trip. -/

/-- Decimal digits of a number. -/
def digits (n : ℕ) : List ℕ :=
  if n < 10 then [48 + n] else digits (n / 10) ++ [48 + n % 10]

mutual
/-- The usual rendering, without white space. `unit` has no syntax. -/
def print : InputValue → Option (List ℕ)
  | .number n => some (if n < 0 then 45 :: digits n.natAbs else digits n.natAbs)
  | .bool b => some (if b then [116, 114, 117, 101] else [102, 97, 108, 115, 101])
  | .list vs => (printAll vs).map fun s => 91 :: s ++ [93]
  | .struct vs => (printAll vs).map fun s => 123 :: s ++ [125]
  | .unit => none

/-- Comma-separated rendering. -/
def printAll : List InputValue → Option (List ℕ)
  | [] => some []
  | [v] => print v
  | v :: w :: vs => do
    let s ← print v
    let t ← printAll (w :: vs)
    some (s ++ 44 :: t)
end

mutual
/-- Every number in the value is an `i64`. -/
def InI64 : InputValue → Prop
  | .number n => -2 ^ 63 ≤ n ∧ n < 2 ^ 63
  | .list vs => AllInI64 vs
  | .struct vs => AllInI64 vs
  | _ => True

/-- see `InI64` -/
def AllInI64 : List InputValue → Prop
  | [] => True
  | v :: vs => InI64 v ∧ AllInI64 vs
end

theorem digits_spec (n : ℕ) : Digits (digits n) n := by
  induction n using Nat.strong_induction_on with
  | _ n ih =>
    unfold digits
    by_cases h : n < 10
    · rw [if_pos h]; exact .one n h
    · rw [if_neg h]
      have := Digits.snoc (ih (n / 10) (by omega)) (n % 10) (by omega)
      rwa [Nat.div_add_mod] at this

mutual
theorem print_value : ∀ (v : InputValue) (s : List ℕ), print v = some s → InI64 v → Value v s
  | .number n, s, h, hi => by
    simp only [print, Option.some.injEq] at h
    subst h
    simp only [InI64] at hi
    by_cases hn : n < 0
    · rw [if_pos hn]
      have := Value.neg (digits_spec n.natAbs) (by omega)
      rwa [show (-(n.natAbs : ℤ)) = n by omega] at this
    · rw [if_neg hn]
      have := Value.nat (digits_spec n.natAbs) (by omega)
      rwa [show ((n.natAbs : ℤ)) = n by omega] at this
  | .bool b, s, h, _ => by
    simp only [print, Option.some.injEq] at h
    subst h
    cases b
    · exact .ff
    · exact .tt
  | .list vs, s, h, hi => by
    simp only [print, Option.map_eq_some_iff] at h
    obtain ⟨t, ht, rfl⟩ := h
    exact .array (print_all vs t ht (by simpa [InI64] using hi))
  | .struct vs, s, h, hi => by
    simp only [print, Option.map_eq_some_iff] at h
    obtain ⟨t, ht, rfl⟩ := h
    exact .struct (print_all vs t ht (by simpa [InI64] using hi))
  | .unit, s, h, _ => by simp [print] at h

theorem print_all : ∀ (vs : List InputValue) (s : List ℕ), printAll vs = some s → AllInI64 vs → Body vs s
  | [], s, h, _ => by
    simp only [printAll, Option.some.injEq] at h
    subst h
    exact .empty (by intro b hb; cases hb)
  | [v], s, h, hi => by
    simp only [printAll] at h
    simp only [AllInI64] at hi
    have := Items.last (w := []) (w' := []) (print_value v s h hi.1) (by intro b hb; cases hb)
      (by intro b hb; cases hb)
    simp only [List.nil_append, List.append_nil] at this
    exact .items this
  | v :: w :: vs, s, h, hi => by
    simp only [printAll, Option.bind_eq_bind, Option.bind_eq_some_iff, Option.some.injEq] at h
    obtain ⟨a, ha, b, hb, rfl⟩ := h
    have hi' : InI64 v ∧ AllInI64 (w :: vs) := by rw [AllInI64] at hi; exact hi
    have h2 := print_all (w :: vs) b hb hi'.2
    have hne : Items (w :: vs) b := by cases h2 with | items h => exact h
    have := Items.more (w := []) (w' := []) (print_value v a ha hi'.1) (by intro b hb; cases hb)
      (by intro b hb; cases hb) hne
    simp only [List.nil_append, List.append_nil] at this
    exact .items this
end

/-- C20: printing and parsing back is the identity, for every printable value. -/
theorem C20_round_trip (v : InputValue) (s : List ℕ) (hp : print v = some s) (hi : InI64 v) :
    parse s = .ok v :=
  (C20_parse_iff s v).2 ⟨[], s, [], (by intro b hb; cases hb), (by intro b hb; cases hb), by simp,
    print_value v s hp hi⟩

/-- `" [ -5, {true,()} ]"` parses, and a trailing comma or trailing characters are rejected. -/
example :
    parse [32, 91, 32, 45, 53, 44, 32, 123, 116, 114, 117, 101, 44, 40, 41, 125, 32, 93] =
      .ok (.list [.number (-5), .struct [.bool true, .list []]]) ∧
    parse [91, 49, 44, 93] = .error .parse ∧ parse [49, 32, 50] = .error .parse := ⟨rfl, rfl, rfl⟩

/-- A value meeting the hypotheses of the round trip. -/
example : print (.list [.number (-5), .struct [.bool true]]) =
      some [91, 45, 53, 44, 123, 116, 114, 117, 101, 125, 93] ∧
    InI64 (.list [.number (-5), .struct [.bool true]]) := by
  constructor
  · simp [print, printAll, digits]
  · simp [InI64, AllInI64]

end Cli
end CairoM
