import Verif.Proofs.Double
/-
  Rounding of the specification of double precision arithmetic is rounding to the nearest double, and to
  the even one if there are two.
-/

namespace X86.Double

/-- `k` times the smallest positive double is a double. -/
def Representable (k : Nat) : Prop := ∃ m f, m < 2 ^ 53 ∧ f ≤ 2045 ∧ k = m * 2 ^ f

/-- Twice the distance of `n / D` from the rounded quotient is at most 1; the two cases. -/
theorem nearestEven_cases (n : Nat) {D : Nat} (hD : 0 < D) :
    (nearestEven n D = n / D ∧ (2 * (n % D) < D ∨ (2 * (n % D) = D ∧ n / D % 2 = 0)))
    ∨ (nearestEven n D = n / D + 1 ∧ (D < 2 * (n % D) ∨ (2 * (n % D) = D ∧ n / D % 2 = 1))) := by
  simp only [nearestEven]
  split
  · rename_i h
    exact .inr ⟨rfl, h⟩
  · rename_i h
    refine .inl ⟨rfl, ?_⟩
    have := Nat.mod_lt n hD
    omega

/-- Doubles in the range of exponent `e` are multiples of `2^e`. -/
theorem representable_gap {k q e : Nat} (hk : Representable k) (he : e = 0 ∨ 2 ^ 52 ≤ q) : k ≤ q * 2 ^ e ∨ (q + 1) * 2 ^ e ≤ k := by
  obtain ⟨m, f, hm, -, rfl⟩ := hk
  rcases Nat.lt_or_ge f e with hf | hf
  · left
    have hq : 2 ^ 52 ≤ q := by omega
    obtain ⟨g, rfl⟩ : ∃ g, e = f + 1 + g := ⟨e - (f + 1), by omega⟩
    rw [show f + 1 + g = f + (1 + g) by omega, Nat.pow_add, Nat.mul_comm (2 ^ f), ← Nat.mul_assoc]
    refine Nat.mul_le_mul_right _ ?_
    have h1 : 2 ^ 1 ≤ 2 ^ (1 + g) := Nat.pow_le_pow_right (by decide) (by omega)
    have h2 := Nat.mul_le_mul hq h1
    have : (2 : Nat) ^ 53 = 2 ^ 52 * 2 ^ 1 := by decide
    omega
  · obtain ⟨g, rfl⟩ : ∃ g, f = e + g := ⟨f - e, by omega⟩
    rw [Nat.pow_add, Nat.mul_comm (2 ^ e), ← Nat.mul_assoc]
    rcases Nat.lt_or_ge q (m * 2 ^ g) with h | h
    · exact .inr (Nat.mul_le_mul_right _ h)
    · exact .inl (Nat.mul_le_mul_right _ h)

/-- Quotient and exponent. -/
theorem round_quotient (n : Nat) {d e : Nat} (he : (n / d).log2 - 52 = e) :
    n / (d * 2 ^ e) < 2 ^ 53 ∧ (e = 0 ∨ 2 ^ 52 ≤ n / (d * 2 ^ e)) := by
  rw [← Nat.div_div_eq_div_mul]
  generalize n / d = x at he ⊢
  have hp : 0 < 2 ^ e := Nat.pow_pos (by decide)
  constructor
  · rw [Nat.div_lt_iff_lt_mul hp, ← Nat.pow_add]
    by_cases h0 : x = 0
    · rw [h0]; exact Nat.pow_pos (by decide)
    · exact Nat.lt_of_lt_of_le Nat.lt_log2_self (Nat.pow_le_pow_right (by decide) (by omega))
  · by_cases h0 : e = 0
    · exact .inl h0
    · right
      rw [Nat.le_div_iff_mul_le hp, ← Nat.pow_add, show 52 + e = x.log2 by omega]
      refine Nat.log2_self_le ?_
      rintro rfl
      exact h0 (by rw [← he]; decide)

/-- Where the infinite numbers begin: half a unit above the largest double. -/
def limit : Nat := (2 ^ 54 - 1) * 2 ^ 2044

/-- The number in a bit pattern. -/
def Value.amount : Value → Nat
  | .fin _ m e => m * 2 ^ e
  | _ => 0

theorem value_pack' (neg : Bool) {q e : Nat} (hq : q ≤ 2 ^ 53) (he : e = 0 ∨ 2 ^ 52 ≤ q) (hl : e * 2 ^ 52 + q < 2047 * 2 ^ 52) :
    ∃ m f, value (pack neg q e) = .fin neg m f ∧ m * 2 ^ f = q * 2 ^ e ∧ (m % 2 = 1 → q % 2 = 1) := by
  rcases Nat.lt_or_ge q (2 ^ 53) with h | h
  · exact ⟨q, e, value_pack neg h (by omega) he, rfl, id⟩
  · obtain rfl : q = 2 ^ 53 := by omega
    refine ⟨2 ^ 52, e + 1, ?_, ?_, by decide⟩
    · rw [← value_pack neg (show 2 ^ 52 < 2 ^ 53 by decide) (show e + 1 ≤ 2045 by omega) (.inr (Nat.le_refl _)), pack, pack]
      rw [show (e + 1) * 2 ^ 52 + 2 ^ 52 = e * 2 ^ 52 + 2 ^ 53 by omega]
    · rw [show (2 : Nat) ^ 53 = 2 ^ 52 * 2 by decide, Nat.mul_assoc, Nat.pow_succ 2 e, Nat.mul_comm (2 ^ e) 2]

theorem value_infinity (neg : Bool) : value (infinity neg) = .inf neg := by cases neg <;> decide +kernel

/-- When the result is infinite. -/
theorem round_limit {n d e Q : Nat} (hd : 0 < d) (he : (n / d).log2 - 52 = e) (hQ : nearestEven n (d * 2 ^ e) = Q) :
    e * 2 ^ 52 + Q < 2047 * 2 ^ 52 ↔ n < limit * d := by
  obtain ⟨h1, h2⟩ := round_quotient n he
  have hp : 0 < 2 ^ e := Nat.pow_pos (by decide)
  have hD : 0 < d * 2 ^ e := Nat.mul_pos hd hp
  have hdm := Nat.div_add_mod n (d * 2 ^ e)
  have hml := Nat.mod_lt n hD
  have hc := nearestEven_cases n hD
  rw [hQ] at hc
  generalize n / (d * 2 ^ e) = q at *
  generalize n % (d * 2 ^ e) = r at *
  have hlim : limit * d = (2 ^ 54 - 1) * (d * 2 ^ 2044) := by rw [limit, Nat.mul_assoc, Nat.mul_comm (2 ^ 2044)]
  rw [hlim, ← hdm]
  clear hlim hdm
  rcases Nat.lt_or_ge e 2045 with h | h
  · -- far from the limit
    refine ⟨fun _ => ?_, fun _ => by omega⟩
    have hle : d * 2 ^ e ≤ d * 2 ^ 2044 := Nat.mul_le_mul_left _ (Nat.pow_le_pow_right (by decide) (by omega))
    generalize d * 2 ^ 2044 = Y at *
    generalize d * 2 ^ e = X at *
    have h3 : X * q ≤ X * (2 ^ 53 - 1) := Nat.mul_le_mul_left _ (by omega)
    omega
  · rcases Nat.lt_or_ge e 2046 with h' | h'
    · obtain rfl : e = 2045 := by omega
      rw [show d * 2 ^ 2045 = 2 * (d * 2 ^ 2044) by rw [Nat.pow_succ 2 2044, ← Nat.mul_assoc, Nat.mul_comm]] at *
      generalize d * 2 ^ 2044 = Y at *
      rcases Nat.lt_or_ge q (2 ^ 53 - 1) with hq | hq
      · refine ⟨fun _ => ?_, fun _ => by omega⟩
        have h3 : 2 * Y * q ≤ 2 * Y * (2 ^ 53 - 2) := Nat.mul_le_mul_left _ (by omega)
        omega
      · obtain rfl : q = 2 ^ 53 - 1 := by omega
        omega
    · refine ⟨fun h => by omega, fun h3 => ?_⟩
      exfalso
      have h4 : 2 ^ 2046 ≤ 2 ^ e := Nat.pow_le_pow_right (by decide) h'
      rw [show (2 : Nat) ^ 2046 = 2 ^ 2044 * 4 by rw [show 2046 = 2044 + 2 by rfl, Nat.pow_add]] at h4
      have h5 := Nat.mul_le_mul_left d h4
      rw [← Nat.mul_assoc] at h5
      generalize d * 2 ^ 2044 = Y at *
      generalize d * 2 ^ e = X at *
      have h6 : X * 2 ^ 52 ≤ X * q := Nat.mul_le_mul_left _ (by omega)
      omega

/-- Rounding gives the nearest double, that with even significand if there are two. -/
theorem round_nearest (neg : Bool) (n : Nat) {d : Nat} (hd : 0 < d) (hn : n < limit * d) :
    ∃ m e, value (round neg n d) = .fin neg m e ∧ ∀ k, Representable k →
      ((n : Int) - m * 2 ^ e * d).natAbs ≤ ((n : Int) - k * d).natAbs
      ∧ (((n : Int) - m * 2 ^ e * d).natAbs = ((n : Int) - k * d).natAbs → k ≠ m * 2 ^ e → m % 2 = 0) := by
  rw [round]
  generalize he : (n / d).log2 - 52 = e
  obtain ⟨h1, h2⟩ := round_quotient n he
  have hp : 0 < 2 ^ e := Nat.pow_pos (by decide)
  have hD : 0 < d * 2 ^ e := Nat.mul_pos hd hp
  have hdm := Nat.div_add_mod n (d * 2 ^ e)
  have hml := Nat.mod_lt n hD
  have hc := nearestEven_cases n hD
  have hlim := (round_limit hd he rfl).2 hn
  generalize nearestEven n (d * 2 ^ e) = Q at *
  generalize hq : n / (d * 2 ^ e) = q at *
  generalize hr : n % (d * 2 ^ e) = r at *
  obtain ⟨m, f, h3, h4, h5⟩ := value_pack' neg (q := Q) (e := e) (by omega) (by omega) hlim
  refine ⟨m, f, h3, fun k hk => ?_⟩
  have h6 : (m : Int) * 2 ^ f * d = ((d * 2 ^ e * Q : Nat) : Int) := by
    rw [Nat.mul_assoc d, Nat.mul_comm (2 ^ e), ← h4, Nat.mul_comm d]; simp
  have h7 : (k : Int) * d = ((k * d : Nat) : Int) := by simp
  have hg : k * d ≤ d * 2 ^ e * q ∨ d * 2 ^ e * q + d * 2 ^ e ≤ k * d := by
    rw [← Nat.mul_succ, Nat.mul_assoc d, Nat.mul_comm (2 ^ e), Nat.mul_assoc d, Nat.mul_comm (2 ^ e), Nat.mul_comm k]
    exact (representable_gap hk h2).imp (Nat.mul_le_mul_left _) (Nat.mul_le_mul_left _)
  have hne : k ≠ m * 2 ^ f → k * d ≠ d * 2 ^ e * Q := by
    intro h h'
    rw [Nat.mul_assoc d, Nat.mul_comm (2 ^ e), ← h4, Nat.mul_comm] at h'
    exact h (Nat.eq_of_mul_eq_mul_left hd h')
  rw [h6, h7]
  have hQ : Q = q ∨ Q = q + 1 := by omega
  have hX : (Q = q ∧ d * 2 ^ e * Q = d * 2 ^ e * q) ∨ (Q = q + 1 ∧ d * 2 ^ e * Q = d * 2 ^ e * q + d * 2 ^ e) := by
    rcases hQ with rfl | rfl
    · exact .inl ⟨rfl, rfl⟩
    · exact .inr ⟨rfl, Nat.mul_succ _ _⟩
  generalize d * 2 ^ e * Q = Z at *
  generalize d * 2 ^ e * q = W at *
  generalize d * 2 ^ e = X at *
  generalize k * d = K at *
  refine ⟨by omega, fun h8 h9 => ?_⟩
  have := hne h9
  omega

/-- Larger numbers become infinite. -/
theorem round_infinite (neg : Bool) {n d : Nat} (hd : 0 < d) (hn : limit * d ≤ n) : value (round neg n d) = .inf neg := by
  rw [round]
  generalize he : (n / d).log2 - 52 = e
  have h := round_limit hd he rfl
  rw [pack, if_pos, value_infinity]
  omega

/-- Doubles are representable numbers. -/
theorem representable_value {a s m e} (h : value a = .fin s m e) : Representable (m * 2 ^ e) := by
  obtain ⟨h1, h2⟩ := value_range h
  exact ⟨m, e, h1, h2, rfl⟩

/-- All representable numbers are doubles. -/
theorem representable_double {k} (h : Representable k) (neg : Bool) : ∃ a m e, value a = .fin neg m e ∧ m * 2 ^ e = k := by
  obtain ⟨m, f, h1, h2, rfl⟩ := h
  refine ⟨_, value_round neg (n := m * 2 ^ f) rfl h1 ?_⟩
  by_cases h0 : m = 0
  · rw [h0, Nat.zero_mul]; decide
  · rw [Nat.log2_lt (Nat.mul_ne_zero h0 (Nat.ne_of_gt (Nat.pow_pos (by decide))))]
    calc m * 2 ^ f < 2 ^ 53 * 2 ^ f := Nat.mul_lt_mul_of_pos_right h1 (Nat.pow_pos (by decide))
      _ = 2 ^ (53 + f) := (Nat.pow_add ..).symm
      _ ≤ 2 ^ 2098 := Nat.pow_le_pow_right (by decide) (by omega)

/-- The invariant of the search of the root. -/
theorem rootFrom_spec (n e : Nat) : ∀ k q, (q * 2 ^ e) ^ 2 ≤ n → n < ((q + 2 ^ k) * 2 ^ e) ^ 2 →
    (rootFrom n e k q * 2 ^ e) ^ 2 ≤ n ∧ n < ((rootFrom n e k q + 1) * 2 ^ e) ^ 2 ∧ rootFrom n e k q < q + 2 ^ k
  | 0, q, h1, h2 => ⟨h1, h2, Nat.lt_succ_self q⟩
  | k + 1, q, h1, h2 => by
    have hk : 2 ^ (k + 1) = 2 ^ k + 2 ^ k := by rw [Nat.pow_succ]; omega
    have hp : 0 < 2 ^ k := Nat.pow_pos (by decide)
    rw [hk, ← Nat.add_assoc] at h2 ⊢
    rw [rootFrom]
    split
    · rename_i h
      exact rootFrom_spec n e k _ h h2
    · rename_i h
      obtain ⟨h3, h4, h5⟩ := rootFrom_spec n e k q h1 (Nat.lt_of_not_le h)
      exact ⟨h3, h4, by omega⟩

/-- The rounded square root is the nearest double, and the even one if there are two: `k` is not nearer to
    `√n` than `m * 2^f` if the middle between both is not on the side of `m * 2^f`. -/
theorem roundRoot_nearest {n : Nat} (hn : 0 < n) (hlim : n < 2 ^ 4192) : ∃ m f, value (roundRoot n) = .fin false m f
    ∧ ∀ k, Representable k →
      (k < m * 2 ^ f → (k + m * 2 ^ f) ^ 2 ≤ 4 * n) ∧ (m * 2 ^ f < k → 4 * n ≤ (k + m * 2 ^ f) ^ 2)
      ∧ (k ≠ m * 2 ^ f → (k + m * 2 ^ f) ^ 2 = 4 * n → m % 2 = 0) := by
  rw [roundRoot]
  have hl : n.log2 < 4192 := (Nat.log2_lt (by omega)).2 hlim
  generalize he : n.log2 / 2 - 52 = e
  have hpow : ∀ c, (2 ^ c * 2 ^ e) ^ 2 = 2 ^ (2 * c + 2 * e) := by
    intro c
    rw [← Nat.pow_add, ← Nat.pow_mul]
    congr 1
    omega
  obtain ⟨h1, h2, h3⟩ := rootFrom_spec n e 53 0 (by simp) (by
    rw [Nat.zero_add, hpow]
    exact Nat.lt_of_lt_of_le Nat.lt_log2_self (Nat.pow_le_pow_right (by decide) (by omega)))
  generalize rootFrom n e 53 0 = q at *
  have h4 : e = 0 ∨ 2 ^ 52 ≤ q := by
    by_cases h0 : e = 0
    · exact .inl h0
    · right
      refine Nat.le_of_not_lt fun hq => ?_
      have h5 : n < (2 ^ 52 * 2 ^ e) ^ 2 := Nat.lt_of_lt_of_le h2 (Nat.pow_le_pow_left (Nat.mul_le_mul_right _ hq) _)
      rw [hpow] at h5
      have h6 : 2 ^ n.log2 ≤ n := Nat.log2_self_le (by omega)
      have h7 : (2 : Nat) ^ (2 * 52 + 2 * e) ≤ 2 ^ n.log2 := Nat.pow_le_pow_right (by decide) (by omega)
      omega
  generalize hQ : (if ((2 * q + 1) * 2 ^ e) ^ 2 < 4 * n ∨ (((2 * q + 1) * 2 ^ e) ^ 2 = 4 * n ∧ q % 2 = 1) then q + 1 else q) = Q
  have hmid : (2 * q + 1) * 2 ^ e = q * 2 ^ e + (q + 1) * 2 ^ e := by rw [← Nat.add_mul]; congr 1; omega
  rw [hmid] at hQ
  have hQ' : Q = q ∨ Q = q + 1 := by split at hQ <;> omega
  obtain ⟨m, f, h5, h6, h7⟩ := value_pack' false (q := Q) (e := e) (by omega) (by omega) (by omega)
  refine ⟨m, f, h5, fun k hk => ?_⟩
  have hg := representable_gap hk h4
  rw [h6]
  have sq : ∀ {a b : Nat}, a ≤ b → a ^ 2 ≤ b ^ 2 := fun h => Nat.pow_le_pow_left h 2
  have sql : ∀ {a b : Nat}, a < b → a ^ 2 < b ^ 2 := fun h => Nat.pow_lt_pow_left h (by decide)
  have four : ∀ a : Nat, (a + a) ^ 2 = 4 * a ^ 2 := by intro a; rw [← Nat.two_mul, Nat.mul_pow]
  have hlt : q * 2 ^ e < (q + 1) * 2 ^ e := Nat.mul_lt_mul_of_pos_right (Nat.lt_succ_self _) (Nat.pow_pos (by decide))
  split at hQ
  · rename_i h
    subst hQ
    generalize q * 2 ^ e = a at *
    generalize (q + 1) * 2 ^ e = b at *
    have f1 := four b
    refine ⟨fun hkb => ?_, fun hkb => ?_, fun hne hE => ?_⟩
    · have := sq (show k + b ≤ a + b by omega)
      omega
    · have := sq (show b + b ≤ k + b by omega)
      omega
    · rcases Nat.lt_or_ge k b with hkb | hkb
      · have := sq (show k + b ≤ a + b by omega)
        omega
      · have := sq (show b + b ≤ k + b by omega)
        omega
  · rename_i h
    subst hQ
    generalize q * 2 ^ e = a at *
    generalize (q + 1) * 2 ^ e = b at *
    have f1 := four a
    refine ⟨fun hkb => ?_, fun hkb => ?_, fun hne hE => ?_⟩
    · have := sq (show k + a ≤ a + a by omega)
      omega
    · have := sq (show a + b ≤ k + a by omega)
      omega
    · rcases Nat.lt_or_ge k a with hkb | hkb
      · have := sql (show k + a < a + a by omega)
        omega
      · have := sq (show a + b ≤ k + a by omega)
        omega

end X86.Double
