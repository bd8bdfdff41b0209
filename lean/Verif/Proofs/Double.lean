import Verif.Spec.Double
/-
  Properties of the specification of double precision arithmetic.
-/

namespace X86.Double

theorem withSign_ex (neg : Bool) {x q : Nat} (hx : x < 2048) (hq : q < 2 ^ 52) :
    ((withSign neg (x * 2 ^ 52 + q)).extractLsb' 52 11).toNat = x
    ∧ ((withSign neg (x * 2 ^ 52 + q)).extractLsb' 0 52).toNat = q
    ∧ (withSign neg (x * 2 ^ 52 + q)).msb = neg := by
  have hn : x * 2 ^ 52 + q < 2 ^ 63 := by omega
  refine ⟨?_, ?_, ?_⟩
  · rw [BitVec.extractLsb'_toNat, withSign, BitVec.toNat_ofNat, Nat.shiftRight_eq_div_pow]
    cases neg <;> simp <;> omega
  · rw [BitVec.extractLsb'_toNat, withSign, BitVec.toNat_ofNat, Nat.shiftRight_eq_div_pow]
    cases neg <;> simp <;> omega
  · rw [BitVec.msb_eq_decide, withSign, BitVec.toNat_ofNat]
    cases neg <;> simp <;> omega

theorem value_withSign (neg : Bool) {x q : Nat} (hx : x < 2047) (hq : q < 2 ^ 52) :
    value (withSign neg (x * 2 ^ 52 + q)) = if x = 0 then .fin neg q 0 else .fin neg (2 ^ 52 + q) (x - 1) := by
  obtain ⟨h1, h2, h3⟩ := withSign_ex neg (x := x) (by omega) hq
  simp only [value, h1, h2, h3]
  rw [if_neg (by omega)]

/-- The pattern of a double. -/
theorem value_pack (neg : Bool) {q e : Nat} (hq : q < 2 ^ 53) (he : e ≤ 2045) (h : e = 0 ∨ 2 ^ 52 ≤ q) :
    value (pack neg q e) = .fin neg q e := by
  rw [pack, if_neg (by omega)]
  by_cases h1 : q < 2 ^ 52
  · obtain rfl : e = 0 := by omega
    have := value_withSign neg (x := 0) (by omega) h1
    rw [this]; rfl
  · have := value_withSign neg (x := e + 1) (q := q - 2 ^ 52) (by omega) (by omega)
    rw [show e * 2 ^ 52 + q = (e + 1) * 2 ^ 52 + (q - 2 ^ 52) by omega, this, if_neg (by omega),
      show 2 ^ 52 + (q - 2 ^ 52) = q by omega]
    rfl

/-- Numbers that are doubles are not changed. -/
theorem value_round (neg : Bool) {n k f : Nat} (hn : n = k * 2 ^ f) (hk : k < 2 ^ 53) (hm : n.log2 < 2098) :
    ∃ m e, value (round neg n 1) = .fin neg m e ∧ m * 2 ^ e = n := by
  refine ⟨n / 2 ^ (n.log2 - 52), n.log2 - 52, ?_, ?_⟩
  all_goals
    have hd : 2 ^ (n.log2 - 52) ∣ n := by
      by_cases h0 : k = 0
      · rw [hn, h0, Nat.zero_mul]; exact Nat.dvd_zero _
      · have hlog : n.log2 < f + 53 := by
          rw [Nat.log2_lt (by rw [hn]; exact Nat.mul_ne_zero h0 (Nat.ne_of_gt (Nat.pow_pos (by decide)))), hn, Nat.pow_add,
            Nat.mul_comm (2 ^ f)]
          exact Nat.mul_lt_mul_of_pos_right hk (Nat.pow_pos (by decide))
        rw [hn] at hlog ⊢
        exact Nat.dvd_trans (Nat.pow_dvd_pow 2 (by omega)) (Nat.dvd_mul_left _ _)
  · have e1 : nearestEven n (2 ^ (n.log2 - 52)) = n / 2 ^ (n.log2 - 52) := by
      have := Nat.pow_pos (n := n.log2 - 52) (show 0 < 2 by decide)
      simp only [nearestEven, Nat.mod_eq_zero_of_dvd hd]
      rw [if_neg (by omega)]
    simp only [round, Nat.div_one, Nat.one_mul, e1]
    refine value_pack neg ?_ (by omega) ?_
    · rw [Nat.div_lt_iff_lt_mul (Nat.pow_pos (by decide)), ← Nat.pow_add]
      by_cases h0 : n = 0
      · rw [h0]; exact Nat.pow_pos (by decide)
      · exact Nat.lt_of_lt_of_le Nat.lt_log2_self (Nat.pow_le_pow_right (by decide) (by omega))
    · by_cases h0 : n.log2 - 52 = 0
      · exact .inl h0
      · right
        rw [Nat.le_div_iff_mul_le (Nat.pow_pos (by decide)), ← Nat.pow_add, show 52 + (n.log2 - 52) = n.log2 by omega]
        exact Nat.log2_self_le (by rintro rfl; exact h0 rfl)
  · exact Nat.div_mul_cancel hd

/-- Range of the numbers. -/
theorem value_range {a s m e} (h : value a = .fin s m e) : m < 2 ^ 53 ∧ e ≤ 2045 := by
  have h1 := (a.extractLsb' 52 11).isLt
  have h2 := (a.extractLsb' 0 52).isLt
  simp only [value] at h
  split at h
  · split at h <;> cases h
  · split at h
    · cases h; omega
    · cases h; omega

theorem log2_le {n k : Nat} (h : n < 2 ^ (k + 1)) : n.log2 ≤ k := by
  by_cases h0 : n = 0
  · subst h0; exact Nat.zero_le _
  · exact Nat.le_of_lt_succ ((Nat.log2_lt h0).2 h)

/-- Rounding to an integer gives the integer that the rounding mode says, without a further error. -/
theorem value_toIntegral (mode : Mode) {a s m e} (h : value a = .fin s m e) :
    ∃ m' e', value (toIntegral mode a) = .fin s m' e'
      ∧ m' * 2 ^ e' = mode.round s (m * 2 ^ e) (2 ^ 1074) * 2 ^ 1074 := by
  obtain ⟨hm, he⟩ := value_range h
  simp only [toIntegral, h]
  generalize hN : mode.round s (m * 2 ^ e) (2 ^ 1074) = N
  have hle : N ≤ m * 2 ^ e / 2 ^ 1074 + 1 ∧ ((2 ^ 1074 ∣ m * 2 ^ e) → N = m * 2 ^ e / 2 ^ 1074) := by
    generalize 2 ^ 1074 = D at hN ⊢
    subst hN
    constructor
    · cases mode <;> simp only [Mode.round, nearestEven] <;> (try split) <;> omega
    · intro hd
      have h0 := Nat.mod_eq_zero_of_dvd hd
      cases mode with
      | nearest =>
        simp only [Mode.round, nearestEven, h0]
        split
        · rename_i h1
          rcases h1 with h1 | ⟨h1, h2⟩
          · omega
          · obtain rfl : D = 0 := by omega
            simp at h2
        · rfl
      | _ => simp [Mode.round, h0]
  by_cases h1 : 1074 ≤ e
  · have hd : 2 ^ 1074 ∣ m * 2 ^ e := Nat.dvd_trans (Nat.pow_dvd_pow 2 h1) (Nat.dvd_mul_left _ _)
    rw [hle.2 hd, Nat.div_mul_cancel hd]
    refine value_round s (k := m) (f := e) rfl hm ?_
    refine Nat.lt_of_le_of_lt (log2_le (k := 2097) ?_) (by decide)
    have : m * 2 ^ e < 2 ^ 53 * 2 ^ e := Nat.mul_lt_mul_of_pos_right hm (Nat.pow_pos (by decide))
    rw [← Nat.pow_add] at this
    exact Nat.lt_of_lt_of_le this (Nat.pow_le_pow_right (by decide) (by omega))
  · have h2 : m * 2 ^ e / 2 ^ 1074 < 2 ^ 52 := by
      rw [Nat.div_lt_iff_lt_mul (Nat.two_pow_pos _), ← Nat.pow_add]
      have : m * 2 ^ e < 2 ^ 53 * 2 ^ e := Nat.mul_lt_mul_of_pos_right hm (Nat.pow_pos (by decide))
      rw [← Nat.pow_add] at this
      exact Nat.lt_of_lt_of_le this (Nat.pow_le_pow_right (by decide) (by omega))
    have h3 : N < 2 ^ 53 := by omega
    refine value_round s (k := N) (f := 1074) rfl h3 ?_
    refine Nat.lt_of_le_of_lt (log2_le (k := 1126) ?_) (by omega)
    have : N * 2 ^ 1074 < 2 ^ 53 * 2 ^ 1074 := Nat.mul_lt_mul_of_pos_right h3 (Nat.pow_pos (by decide))
    rw [← Nat.pow_add] at this
    exact this

/-- Rounding up gives the least integer that is not less. -/
theorem value_ceiling {a s m e} (h : value a = .fin s m e) :
    ∃ m' e', ∃ c : Int, value (toIntegral .up a) = .fin s m' e' ∧ units s m' e' = c * (2 ^ 1074 : Nat)
      ∧ (c - 1) * (2 ^ 1074 : Nat) < units s m e ∧ units s m e ≤ c * (2 ^ 1074 : Nat) := by
  obtain ⟨m', e', h1, h2⟩ := value_toIntegral .up h
  have hD : 0 < 2 ^ 1074 := Nat.two_pow_pos _
  refine ⟨m', e', if s then -(Mode.round .up s (m * 2 ^ e) (2 ^ 1074) : Nat) else (Mode.round .up s (m * 2 ^ e) (2 ^ 1074) : Nat), h1, ?_⟩
  simp only [units, h2]
  generalize 2 ^ 1074 = D at hD ⊢
  generalize m * 2 ^ e = n
  simp only [Mode.round]
  have e1 := Nat.div_add_mod n D
  have e2 := Nat.mod_lt n hD
  generalize n / D = q at *
  generalize n % D = r at *
  rw [Nat.mul_comm] at e1
  have e3 : ((q + 1 : Nat) : Int) * (D : Int) = (q : Int) * D + D := by rw [Int.natCast_add, Int.add_mul]; simp
  have e4 : (-(q : Int) - 1) * (D : Int) = -((q : Int) * D) - D := by rw [Int.sub_mul, Int.neg_mul, Int.one_mul]
  have e5 : ((q + 1 : Nat) - 1 : Int) * (D : Int) = (q : Int) * D := by congr 1; omega
  have e6 : ((q : Int) - 1) * (D : Int) = (q : Int) * D - D := by rw [Int.sub_mul, Int.one_mul]
  have e7 : ((q * D : Nat) : Int) = (q : Int) * D := Int.natCast_mul ..
  have e8 : (((q + 1) * D : Nat) : Int) = (q : Int) * D + D := by rw [Int.natCast_mul, e3]
  cases s with
  | true =>
    simp only [not_true, false_and, if_false, if_true, Int.neg_mul, e4, e7]
    exact ⟨trivial, by omega, by omega⟩
  | false =>
    by_cases h0 : r = 0
    · simp only [h0, Bool.false_eq_true, not_false_eq_true, ne_eq, not_true, and_false, if_false, e6, e7]
      exact ⟨trivial, by omega, by omega⟩
    · simp only [h0, Bool.false_eq_true, not_false_eq_true, ne_eq, and_self, if_true, if_false, e5, e8]
      exact ⟨e3.symm, by omega, by omega⟩

theorem truncate_small {a : BitVec 64} (h : (truncate 64 a).toNat < 2 ^ 31) : (truncate 32 a).setWidth 64 = truncate 64 a := by
  have big : ¬ (BitVec.intMin 64).toNat < 2 ^ 31 := by decide
  simp only [truncate] at h ⊢
  split at h
  · rename_i s m e _
    generalize (units s m e).tdiv (2 ^ 1074 : Nat) = z at h ⊢
    split at h
    · rename_i h1
      have h2 : z = (BitVec.ofInt 64 z).toNat := by
        rw [BitVec.toInt_eq_toNat_of_lt (by omega)] at h1
        exact h1.symm
      have h3 : 0 ≤ z ∧ z < 2 ^ 31 := by omega
      have h4 : (BitVec.ofInt 32 z).toInt = z := by
        rw [BitVec.toInt_ofInt, Int.bmod_eq_of_le (by omega) (by omega)]
      rw [if_pos h4, if_pos h1]
      apply BitVec.eq_of_toNat_eq
      rw [BitVec.toNat_setWidth, BitVec.toNat_ofInt, BitVec.toNat_ofInt]
      omega
    · exact absurd h big
  · exact absurd h big

end X86.Double
