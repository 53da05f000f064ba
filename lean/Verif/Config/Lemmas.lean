import Verif.Config.Model
import Mathlib.Data.Nat.Factors
import Mathlib.Data.Nat.Factorization.Basic
import Mathlib.Tactic.IntervalCases
import Mathlib.Tactic.NormNum.Prime

/-! Helper lemmas for lcode/config/config.py. -/

namespace Lcode.Cfg

open Lcode.Py

theorem lookup_assign (t : Table) (k k' : String) (v : PyVal) :
    (t.assign k v).lookup k' = if k = k' then some v else t.lookup k' := by
  induction t with
  | nil => simp [Table.assign, Table.lookup]
  | cons p t ih =>
    obtain ⟨a, b⟩ := p
    by_cases h : a = k
    · subst h
      by_cases h2 : a = k'
      · simp [Table.assign, Table.lookup, h2]
      · simp [Table.assign, Table.lookup, h2]
    · by_cases h2 : a = k'
      · have : ¬ k = k' := by rintro rfl; exact h h2
        rw [Table.assign, if_neg h, Table.lookup, if_pos h2, if_neg this, Table.lookup, if_pos h2]
      · simp [Table.assign, Table.lookup, h, h2, ih]

theorem lookup_set (env : Env) (c : Config) (k k' : String) (v : PyVal) :
    (c.set env k v).values.lookup k' =
      if k = k' then some (if k = "geometry" ∧ v = .str "circ" then .str "2d" else v)
      else c.values.lookup k' := by
  unfold Config.set Config.adjustOnSet
  by_cases hk : k = "processing-unit-type"
  · subst hk
    have : ¬ ("processing-unit-type" = "geometry") := by decide
    simp only [this, false_and, if_false, if_true]
    split_ifs <;> simp_all [lookup_assign]
  · by_cases hg : k = "geometry"
    · subst hg
      simp only [hk, if_false, lookup_assign, if_true, true_and, Option.some.injEq]
      by_cases hv : v = .str "circ"
      · by_cases h : "geometry" = k' <;> simp [hv, lookup_assign, h]
      · by_cases h : "geometry" = k' <;> simp [hv, lookup_assign, h]
    · simp [hk, hg, lookup_assign]

theorem getfloat_set (env : Env) (c : Config) (k k' : String) (q : ℚ) (fb : ℚ) :
    (c.set env k (.float q)).getfloat env k' fb =
      if k = k' then q else c.getfloat env k' fb := by
  unfold Config.getfloat
  rw [lookup_set]
  by_cases h : k = k' <;> simp [h, toFloat?]

theorem find_divisor (n : ℕ) (h : 2 ≤ n) :
    (List.range' 2 (n - 1)).find? (fun i => n % i == 0) = some n.minFac := by
  rw [List.find?_range'_eq_some]
  refine ⟨?_, ?_, ?_⟩
  · simp [Nat.mod_eq_zero_of_dvd (Nat.minFac_dvd n)]
  · rw [List.mem_range'_1]
    have h1 := (Nat.minFac_prime (n := n) (by omega)).two_le
    have h2 := Nat.minFac_le (n := n) (by omega)
    omega
  · intro j hj hlt
    have : ¬ j ∣ n := fun hd => by
      have := Nat.minFac_le_of_dvd hj hd
      omega
    simp [Nat.dvd_iff_mod_eq_zero] at this
    simpa using this

theorem factorize_eq (n : ℕ) (acc : List ℕ) :
    factorize n acc = some (acc ++ n.primeFactorsList) := by
  induction n using Nat.strong_induction_on generalizing acc with
  | _ n ih =>
    rw [factorize]
    split_ifs with h
    · have : n = 0 ∨ n = 1 := by omega
      rcases this with rfl | rfl <;> simp
    · have hf := find_divisor n (by omega)
      have hlt : n / n.minFac < n :=
        Nat.div_lt_self (by omega) (Nat.minFac_prime (n := n) (by omega)).one_lt
      split
      · rename_i i hi
        rw [hf] at hi
        obtain rfl : n.minFac = i := by simpa using hi
        rw [ih _ hlt]
        obtain ⟨k, rfl⟩ : ∃ k, n = k + 2 := ⟨n - 2, by omega⟩
        conv_rhs => rw [Nat.primeFactorsList]
        simp
      · rename_i hi
        rw [hf] at hi
        simp at hi

/-- Exponent form of a number with restricted prime factors. -/
theorem exponents_of_list (l : List ℕ) (h : ∀ f ∈ l, f ∈ [2, 3, 4, 5, 7, 11, 13]) :
    ∃ a b c d : ℕ, l.prod = 2 ^ a * 3 ^ b * 5 ^ c * 7 ^ d * 11 ^ l.count 11 * 13 ^ l.count 13 := by
  induction l with
  | nil => exact ⟨0, 0, 0, 0, by simp⟩
  | cons x l ih =>
    obtain ⟨a, b, c, d, hp⟩ := ih (fun f hf => h f (by simp [hf]))
    have hx := h x (by simp)
    simp only [List.mem_cons, List.not_mem_nil, or_false] at hx
    rcases hx with rfl | rfl | rfl | rfl | rfl | rfl | rfl
    · exact ⟨a + 1, b, c, d, by simp [hp]; ring⟩
    · exact ⟨a, b + 1, c, d, by simp [hp]; ring⟩
    · exact ⟨a + 2, b, c, d, by simp [hp]; ring⟩
    · exact ⟨a, b, c + 1, d, by simp [hp]; ring⟩
    · exact ⟨a, b, c, d + 1, by simp [hp]; ring⟩
    · exact ⟨a, b, c, d, by simp [hp]; ring⟩
    · exact ⟨a, b, c, d, by simp [hp]; ring⟩

theorem prime_dvd_smooth {a b c d e f p : ℕ} (hp : p.Prime)
    (h : p ∣ 2 ^ a * 3 ^ b * 5 ^ c * 7 ^ d * 11 ^ e * 13 ^ f) :
    p ∈ [2, 3, 5, 7, 11, 13] := by
  have key : ∀ q k : ℕ, q.Prime → p ∣ q ^ k → p = q := fun q k hq hd =>
    (Nat.prime_dvd_prime_iff_eq hp hq).mp (hp.dvd_of_dvd_pow hd)
  simp only [hp.dvd_mul] at h
  rcases h with ((((h | h) | h) | h) | h) | h
  · simp [key 2 a (by norm_num) h]
  · simp [key 3 b (by norm_num) h]
  · simp [key 5 c (by norm_num) h]
  · simp [key 7 d (by norm_num) h]
  · simp [key 11 e (by norm_num) h]
  · simp [key 13 f (by norm_num) h]

theorem factorization_smooth (a b c d e f q : ℕ) :
    (2 ^ a * 3 ^ b * 5 ^ c * 7 ^ d * 11 ^ e * 13 ^ f).factorization q =
      a * (Nat.factorization 2 q) + b * (Nat.factorization 3 q) + c * (Nat.factorization 5 q)
      + d * (Nat.factorization 7 q) + e * (Nat.factorization 11 q)
      + f * (Nat.factorization 13 q) := by
  rw [Nat.factorization_mul (by positivity) (by positivity),
    Nat.factorization_mul (by positivity) (by positivity),
    Nat.factorization_mul (by positivity) (by positivity),
    Nat.factorization_mul (by positivity) (by positivity),
    Nat.factorization_mul (by positivity) (by positivity)]
  simp only [Nat.factorization_pow, Finsupp.add_apply, Finsupp.smul_apply, smul_eq_mul]

theorem factorization_prime_self_or {p q : ℕ} (hp : p.Prime) :
    Nat.factorization p q = if p = q then 1 else 0 := by
  rw [hp.factorization, Finsupp.single_apply]

theorem argminDist_spec (x : ℤ) (l : List ℕ) (n : ℕ) (h : argminDist x l = some n) :
    n ∈ l ∧ ∀ m ∈ l, |(n : ℤ) - x| ≤ |(m : ℤ) - x| := by
  induction l generalizing n with
  | nil => simp [argminDist] at h
  | cons a l ih =>
    unfold argminDist at h
    cases hl : argminDist x l with
    | none =>
      have : l = [] := by
        cases l with
        | nil => rfl
        | cons b l =>
          unfold argminDist at hl
          split at hl
          · simp at hl
          · split at hl <;> simp at hl
      simp [hl] at h
      subst this; subst h; simp
    | some b =>
      simp only [hl] at h
      obtain ⟨hb, hmin⟩ := ih b hl
      split_ifs at h with hc
      · simp only [Option.some.injEq] at h; subst h
        refine ⟨by simp, fun m hm => ?_⟩
        rcases List.mem_cons.mp hm with rfl | hm
        · exact le_refl _
        · exact hc.trans (hmin m hm)
      · simp only [Option.some.injEq] at h; subst h
        refine ⟨by simp [hb], fun m hm => ?_⟩
        rcases List.mem_cons.mp hm with rfl | hm
        · exact (not_le.mp hc).le
        · exact hmin m hm

theorem argminDist_ties (x : ℤ) (l : List ℕ) (hs : l.Pairwise (· < ·)) (n : ℕ)
    (h : argminDist x l = some n) (m : ℕ) (hm : m ∈ l)
    (he : |(m : ℤ) - x| = |(n : ℤ) - x|) : n ≤ m := by
  induction l generalizing n with
  | nil => simp at hm
  | cons a l ih =>
    have hs' := List.pairwise_cons.mp hs
    unfold argminDist at h
    cases hl : argminDist x l with
    | none =>
      simp [hl] at h
      subst h
      rcases List.mem_cons.mp hm with rfl | hm
      · exact le_refl _
      · exact (hs'.1 m hm).le
    | some b =>
      simp only [hl] at h
      split_ifs at h with hc
      · simp only [Option.some.injEq] at h; subst h
        rcases List.mem_cons.mp hm with rfl | hm
        · exact le_refl _
        · exact (hs'.1 m hm).le
      · simp only [Option.some.injEq] at h; subst h
        rcases List.mem_cons.mp hm with rfl | hm
        · exact absurd he.le hc
        · exact ih hs'.2 _ hl hm he

theorem argminDist_isSome (x : ℤ) (l : List ℕ) (h : l ≠ []) : ∃ n, argminDist x l = some n := by
  cases l with
  | nil => exact absurd rfl h
  | cons a l =>
    unfold argminDist
    split
    · exact ⟨_, rfl⟩
    · split <;> exact ⟨_, rfl⟩

theorem mem_goodNumbers (e : ℤ) (n : ℕ) :
    n ∈ goodNumbers e ↔ e - 100 ≤ n ∧ (n : ℤ) < e + 100 ∧ goodSize n = true := by
  unfold goodNumbers
  simp only [List.mem_filter, List.mem_range'_1]
  split_ifs <;> constructor <;> rintro ⟨h1, h2⟩ <;> refine ⟨by omega, ?_⟩ <;> simp_all <;> omega

theorem goodNumbers_sorted (e : ℤ) : (goodNumbers e).Pairwise (· < ·) :=
  List.Pairwise.filter _ (List.pairwise_lt_range' ..)

end Lcode.Cfg
