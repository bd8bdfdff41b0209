import Verif.Proofs.Rust
/-
  Values of Rust expressions when the last operand is converted.
-/

namespace Rust
open Monoasm (Tok)

theorem hasTy_bin {o : BinOp} (ho : ¬ o.Shift) : HasTy Γ (.bin o l r) (.int t) ↔ HasTy Γ l (.int t) ∧ HasTy Γ r (.int t) := by
  cases o <;> first | exact (ho trivial).elim | simp [HasTy]

theorem forced_bin {o : BinOp} (ho : ¬ o.Shift) : forced Γ (.bin o l r) = (forced Γ l).orElse fun _ => forced Γ r := by
  cases o <;> first | exact (ho trivial).elim | simp [forced]

theorem eval_bin {o : BinOp} (ho : ¬ o.Shift) :
    eval chk Γ ρ (.bin o l r) t = (do o.apply chk t (← eval chk Γ ρ l t) (← eval chk Γ ρ r t)) := by
  cases o <;> first | exact (ho trivial).elim | simp [eval]

/-- The forced type is the only type. -/
theorem forced_eq : ∀ (e : Expr), HasTy Γ e (.int t) → forced Γ e = some s → s = t
  | .lit n x, h, hf => by
    rcases h.1 with h | h
    · subst h; cases hf
    · rw [show forced Γ (.lit n x) = intTy x from rfl, h] at hf; cases hf; rfl
  | .var x, h, hf => by
    have h : Γ x = some (.int t) := by simpa [HasTy] using h
    simp [forced, h] at hf; exact hf.symm
  | .paren e, h, hf => forced_eq e (by simpa [HasTy] using h) (by simpa [forced] using hf)
  | .neg (.lit n x), h, hf => by
    simp only [HasTy] at h
    rcases h.2.1 with h | h
    · subst h; cases hf
    · rw [show forced Γ (.neg (.lit n x)) = intTy x from rfl, h] at hf; cases hf; rfl
  | .neg (.float b), h, hf | .neg (.deref e), h, hf | .neg (.ref e), h, hf | .neg (.method e m), h, hf => by simp [forced] at hf
  | .neg (.var b), h, hf => forced_eq (.var b) (by simp only [HasTy] at h ⊢; exact h.2) (by simpa [forced] using hf)
  | .neg (.paren b), h, hf => forced_eq (.paren b) (by simp only [HasTy] at h ⊢; exact h.2) (by simpa [forced] using hf)
  | .neg (.neg b), h, hf => forced_eq (.neg b) (by rw [HasTy] at h; exact h.2; all_goals simp) (by simpa [forced] using hf)
  | .neg (.not b), h, hf => forced_eq (.not b) (by simp only [HasTy] at h ⊢; exact h.2) (by simpa [forced] using hf)
  | .neg (.cast b s), h, hf => forced_eq (.cast b s) (by simp only [HasTy] at h ⊢; exact h.2) (by simpa [forced] using hf)
  | .neg (.bin o a b), h, hf => forced_eq (.bin o a b) (by rw [HasTy] at h; exact h.2; all_goals simp) (by rw [forced] at hf; exact hf)
  | .not e, h, hf => forced_eq e (by simpa [HasTy] using h) (by simpa [forced] using hf)
  | .cast e x, h, hf => by
    simp only [HasTy] at h
    rw [show forced Γ (.cast e x) = intTy x from rfl, h.1] at hf; cases hf; rfl
  | .bin .shl l r, h, hf | .bin .shr l r, h, hf => by
    simp only [HasTy] at h
    exact forced_eq l h.1 (by simpa [forced] using hf)
  | .bin .add l r, h, hf | .bin .sub l r, h, hf | .bin .mul l r, h, hf | .bin .div l r, h, hf | .bin .rem l r, h, hf
  | .bin .and l r, h, hf | .bin .or l r, h, hf | .bin .xor l r, h, hf => by
    simp only [HasTy] at h
    simp only [forced] at hf
    cases hl : forced Γ l with
    | some s' =>
      simp [hl] at hf
      subst hf
      exact forced_eq l h.1 hl
    | none =>
      simp [hl] at hf
      exact forced_eq r h.2 hf
  | .float _, _, hf | .deref _, _, hf | .ref _, _, hf | .method _ _, _, hf => by simp [forced] at hf

/-! ### Values of type `i32` -/

theorem fits_i32 {v : Int} : i32.Fits v ↔ -2147483648 ≤ v ∧ v ≤ 2147483647 := by
  simp [IntTy.Fits, IntTy.min, IntTy.max, i32]

theorem wrap_i32 (v : Int) : i32.wrap v = Int.bmod v 4294967296 := by simp [IntTy.wrap, i32]

theorem wrap_fits (v : Int) : i32.Fits (i32.wrap v) := by
  rw [fits_i32, wrap_i32]
  have h1 := Int.le_bmod (x := v) (m := 4294967296) (by decide)
  have h2 := Int.bmod_lt (x := v) (m := 4294967296) (by decide)
  omega

theorem wrap_self {v : Int} (h : i32.Fits v) : i32.wrap v = v := by
  rw [fits_i32] at h
  rw [wrap_i32]
  exact Int.bmod_eq_of_le (by omega) (by omega)

theorem wrap_eq_iff {v w : Int} : i32.wrap v = i32.wrap w ↔ BitVec.ofInt 32 v = BitVec.ofInt 32 w := by
  rw [wrap_i32, wrap_i32, ← BitVec.toInt_inj, BitVec.toInt_ofInt, BitVec.toInt_ofInt]

theorem result_fits {v w : Int} (h : i32.result chk v = some w) : i32.Fits w := by
  unfold IntTy.result at h
  split at h
  · cases h; assumption
  · split at h <;> cases h
    exact wrap_fits _

theorem apply_fits {o : BinOp} {a b w : Int} (ha : i32.Fits a) (h : o.apply chk i32 a b = some w) : i32.Fits w := by
  cases o with
  | add | sub | mul => exact result_fits h
  | and | xor | or =>
    simp only [BinOp.apply, Option.some.injEq, IntTy.bitwise] at h
    rw [← h]
    exact wrap_fits _
  | shl =>
    simp only [BinOp.apply] at h
    split at h <;> cases h
    exact wrap_fits _
  | shr =>
    simp only [BinOp.apply] at h
    split at h <;> cases h
    rw [fits_i32] at ha ⊢
    generalize (b % (i32.bits : Int)).toNat = k
    have hk : (1 : Int) ≤ 2 ^ k := Int.pow_pos (by decide)
    constructor
    · apply Int.le_ediv_of_mul_le (by omega)
      have : (2147483648 : Int) * 1 ≤ 2147483648 * 2 ^ k := Int.mul_le_mul_of_nonneg_left hk (by decide)
      omega
    · apply Int.le_of_lt_add_one
      apply Int.ediv_lt_of_lt_mul (by omega)
      have : (2147483648 : Int) * 1 ≤ 2147483648 * 2 ^ k := Int.mul_le_mul_of_nonneg_left hk (by decide)
      omega
  | div =>
    simp only [BinOp.apply] at h
    split at h <;> cases h
    rename_i h
    simp only [not_or, Classical.not_not] at h
    exact h.2
  | rem =>
    simp only [BinOp.apply] at h
    split at h <;> cases h
    rw [fits_i32] at ha ⊢
    have h1 : (a.tmod b).natAbs ≤ a.natAbs := by
      rw [Int.natAbs_tmod]
      exact Nat.mod_le _ _
    rcases Int.le_total 0 a with h0 | h0
    · have := Int.tmod_nonneg b h0
      omega
    · have : (-a).tmod b ≥ 0 := Int.tmod_nonneg b (by omega)
      rw [Int.neg_tmod] at this
      omega

theorem eval_neg {e : Expr} {t : IntTy} : eval chk Γ ρ (.neg e) t = (do t.result chk (-(← eval chk Γ ρ e t))) ∨
    ∃ n s, e = .lit n s := by
  cases e <;> first | exact .inr ⟨_, _, rfl⟩ | exact .inl (by simp [eval])

theorem eval_fits (hρ : Typed Γ ρ) : ∀ (e : Expr) {v : Int}, HasTy Γ e (.int i32) → eval chk Γ ρ e i32 = some v → i32.Fits v
  | .lit n x, v, h, hv => by
    cases hv
    rw [fits_i32]
    have : (n : Int) ≤ i32.max := h.2
    simp [IntTy.max, i32] at this
    omega
  | .var x, v, h, hv => by
    cases hv
    exact hρ x i32 (by simpa [HasTy] using h)
  | .paren e, v, h, hv => eval_fits hρ e (by simpa [HasTy] using h) (by simpa [eval] using hv)
  | .neg e, v, h, hv => by
    rcases eval_neg (chk := chk) (Γ := Γ) (ρ := ρ) (e := e) (t := i32) with he | ⟨n, s, rfl⟩
    · rw [he] at hv
      simp only [Option.bind_eq_bind, Option.bind_eq_some_iff] at hv
      obtain ⟨w, -, hw⟩ := hv
      exact result_fits hw
    · cases hv
      rw [fits_i32]
      have : -(n : Int) ≥ i32.min := by
        simp only [HasTy] at h
        exact h.2.2
      simp [IntTy.min, i32] at this
      omega
  | .not e, v, h, hv => by
    simp only [eval, Option.bind_eq_bind, Option.bind_eq_some_iff] at hv
    obtain ⟨w, -, hw⟩ := hv
    cases hw
    exact wrap_fits _
  | .cast e s, v, h, hv => by
    simp only [eval, Option.bind_eq_bind, Option.bind_eq_some_iff] at hv
    obtain ⟨w, -, hw⟩ := hv
    cases hw
    exact wrap_fits _
  | .bin o l r, v, h, hv => by
    have hl : HasTy Γ l (.int i32) := by cases o <;> (simp only [HasTy] at h; exact h.1)
    have : ∃ a b, eval chk Γ ρ l i32 = some a ∧ o.apply chk i32 a b = some v := by
      cases o <;> (simp only [eval, Option.bind_eq_bind, Option.bind_eq_some_iff] at hv; obtain ⟨a, ha, b, -, hb⟩ := hv; exact ⟨a, b, ha, hb⟩)
    obtain ⟨a, b, ha, hb⟩ := this
    exact apply_fits (eval_fits hρ l hl ha) hb
  | .float _, v, h, hv | .deref _, v, h, hv | .ref _, v, h, hv | .method _ _, v, h, hv => by simp [eval] at hv

/-! ### All operands of type `i32` -/

theorem typeFor_i32 : ∀ (e : Expr), HasTy Γ e (.int i32) → typeFor Γ i32 e = i32 := by
  intro e h
  have : typeFor Γ i32 e = (forced Γ e).getD i32 := by
    clear h
    induction e with
    | paren e ih | neg e ih | not e ih => simpa [typeFor, forced] using ih
    | _ => simp [typeFor]
  rw [this]
  cases hf : forced Γ e with
  | none => rfl
  | some s => exact forced_eq e h hf

theorem eval_cast_i32 (hρ : Typed Γ ρ) (e : Expr) (h : HasTy Γ e (.int i32)) :
    eval chk Γ ρ (.cast e "i32") i32 = eval chk Γ ρ e i32 := by
  simp only [eval, typeFor_i32 e h]
  cases hv : eval chk Γ ρ e i32 with
  | none => rfl
  | some v => exact congrArg some (wrap_self (eval_fits hρ e h hv))

theorem castLast_i32 (hρ : Typed Γ ρ) : ∀ (e : Expr), HasTy Γ e (.int i32) → (∀ o ∈ e.lastOps, ¬ o.Shift) →
    eval chk Γ ρ (e.castLast "i32") i32 = eval chk Γ ρ e i32
  | .bin o l r, h, ho => by
    have h1 := ho o (by simp [Expr.lastOps])
    have ih := castLast_i32 (chk := chk) hρ r ((hasTy_bin h1).1 h).2 fun o' ho' => ho o' (by simp [Expr.lastOps, ho'])
    rw [Expr.castLast, eval_bin h1, eval_bin h1, ih]
  | .lit _ _, h, _ | .float _, h, _ | .var _, h, _ | .paren _, h, _ | .method _ _, h, _ | .neg _, h, _ | .not _, h, _
  | .deref _, h, _ | .ref _, h, _ | .cast _ _, h, _ => eval_cast_i32 hρ _ h

/-! ### Arithmetic modulo `2 ^ 32` -/

theorem BinOp.Ring.not_shift {o : BinOp} (h : o.Ring) : ¬ o.Shift := by cases o <;> simp_all [BinOp.Ring, BinOp.Shift]

theorem ofInt_mod (n : Nat) (h : 32 ≤ n) (v : Int) : BitVec.ofInt 32 (v % 2 ^ n) = BitVec.ofInt 32 v := by
  apply BitVec.eq_of_toInt_eq
  rw [BitVec.toInt_ofInt, BitVec.toInt_ofInt]
  have hd : ((2 ^ 32 : Nat) : Int) ∣ 2 ^ n := by
    have := Int.ofNat_dvd.2 (Nat.pow_dvd_pow 2 h)
    simpa using this
  rw [← Int.emod_bmod (v % 2 ^ n), Int.emod_emod_of_dvd _ hd, Int.emod_bmod]

theorem ofInt_wrap {t : IntTy} (h : 32 ≤ t.bits) (v : Int) : BitVec.ofInt 32 (t.wrap v) = BitVec.ofInt 32 v := by
  unfold IntTy.wrap
  split
  · have h2 : Int.bmod v (2 ^ t.bits) % 2 ^ t.bits = v % 2 ^ t.bits := by
      have := @Int.bmod_emod v (2 ^ t.bits)
      simpa using this
    rw [← ofInt_mod _ h, h2, ofInt_mod _ h]
  · exact ofInt_mod _ h v

theorem ofInt_result {t : IntTy} (h : 32 ≤ t.bits) (v : Int) : ∃ w, t.result false v = some w ∧ BitVec.ofInt 32 w = BitVec.ofInt 32 v := by
  unfold IntTy.result
  split
  · exact ⟨_, rfl, rfl⟩
  · exact ⟨_, rfl, ofInt_wrap h v⟩

theorem ofInt_bitwise {t : IntTy} (h : 32 ≤ t.bits) (f : (n : Nat) → BitVec n → BitVec n → BitVec n)
    (hf : ∀ (n : Nat) (x y : BitVec n), (f n x y).setWidth 32 = f 32 (x.setWidth 32) (y.setWidth 32)) (a b : Int) :
    BitVec.ofInt 32 (t.bitwise (f _) a b) = f 32 (.ofInt 32 a) (.ofInt 32 b) := by
  have hs : ∀ x : Int, (BitVec.ofInt t.bits x).setWidth 32 = BitVec.ofInt 32 x := by
    intro x
    apply BitVec.eq_of_toNat_eq
    have h2 := congrArg BitVec.toNat (ofInt_mod _ h x)
    simp only [BitVec.toNat_setWidth, BitVec.toNat_ofInt] at h2 ⊢
    rw [← h2]
    have : 0 ≤ x % 2 ^ t.bits := Int.emod_nonneg _ (by have : (0 : Int) < 2 ^ t.bits := Int.pow_pos (by decide); omega)
    rw [Int.toNat_emod this (by decide)]
    simp
  unfold IntTy.bitwise
  rw [ofInt_wrap h, BitVec.ofInt_natCast, ← hs a, ← hs b, ← hf]
  apply BitVec.eq_of_toNat_eq
  simp

theorem ring_apply {o : BinOp} (ho : o.Ring) {t t' : IntTy} (h : 32 ≤ t.bits) (h' : 32 ≤ t'.bits) {a b a' b' v : Int}
    (ha : BitVec.ofInt 32 a' = BitVec.ofInt 32 a) (hb : BitVec.ofInt 32 b' = BitVec.ofInt 32 b) (hv : o.apply false t a b = some v) :
    ∃ w, o.apply false t' a' b' = some w ∧ BitVec.ofInt 32 w = BitVec.ofInt 32 v := by
  cases o with
  | add =>
    obtain ⟨w, hw, hw'⟩ := ofInt_result h' (a' + b')
    obtain ⟨u, hu, hu'⟩ := ofInt_result h (a + b)
    rw [BinOp.apply, hu] at hv; cases hv
    exact ⟨w, hw, by rw [hw', hu', BitVec.ofInt_add, BitVec.ofInt_add, ha, hb]⟩
  | sub =>
    obtain ⟨w, hw, hw'⟩ := ofInt_result h' (a' - b')
    obtain ⟨u, hu, hu'⟩ := ofInt_result h (a - b)
    rw [BinOp.apply, hu] at hv; cases hv
    exact ⟨w, hw, by rw [hw', hu', Int.sub_eq_add_neg, Int.sub_eq_add_neg, BitVec.ofInt_add, BitVec.ofInt_add, BitVec.ofInt_neg, BitVec.ofInt_neg, ha, hb]⟩
  | mul =>
    obtain ⟨w, hw, hw'⟩ := ofInt_result h' (a' * b')
    obtain ⟨u, hu, hu'⟩ := ofInt_result h (a * b)
    rw [BinOp.apply, hu] at hv; cases hv
    exact ⟨w, hw, by rw [hw', hu', BitVec.ofInt_mul, BitVec.ofInt_mul, ha, hb]⟩
  | and =>
    rw [BinOp.apply] at hv; cases hv
    have hf : ∀ (n : Nat) (x y : BitVec n), (x &&& y).setWidth 32 = x.setWidth 32 &&& y.setWidth 32 := fun _ _ _ => BitVec.setWidth_and
    exact ⟨_, rfl, by rw [ofInt_bitwise h' (fun _ x y => x &&& y) hf, ofInt_bitwise h (fun _ x y => x &&& y) hf, ha, hb]⟩
  | xor =>
    rw [BinOp.apply] at hv; cases hv
    have hf : ∀ (n : Nat) (x y : BitVec n), (x ^^^ y).setWidth 32 = x.setWidth 32 ^^^ y.setWidth 32 := fun _ _ _ => BitVec.setWidth_xor
    exact ⟨_, rfl, by rw [ofInt_bitwise h' (fun _ x y => x ^^^ y) hf, ofInt_bitwise h (fun _ x y => x ^^^ y) hf, ha, hb]⟩
  | or =>
    rw [BinOp.apply] at hv; cases hv
    have hf : ∀ (n : Nat) (x y : BitVec n), (x ||| y).setWidth 32 = x.setWidth 32 ||| y.setWidth 32 := fun _ _ _ => BitVec.setWidth_or
    exact ⟨_, rfl, by rw [ofInt_bitwise h' (fun _ x y => x ||| y) hf, ofInt_bitwise h (fun _ x y => x ||| y) hf, ha, hb]⟩
  | div | rem | shl | shr => exact ho.elim

/-- Literals have the same value modulo `2 ^ 32` with all types. -/
theorem eval_free : ∀ (e : Expr) {t t' : IntTy} (_ : 32 ≤ t.bits) (_ : 32 ≤ t'.bits) {v : Int}, e.Ring → forced Γ e = none →
    HasTy Γ e (.int t) → eval false Γ ρ e t = some v →
    ∃ w, eval false Γ ρ e t' = some w ∧ BitVec.ofInt 32 w = BitVec.ofInt 32 v
  | .lit n x, t, t', _, _, v, _, _, _, hv => ⟨v, hv, rfl⟩
  | .var x, t, t', _, _, v, _, hf, h, hv => by
    have h : Γ x = some (.int t) := by simpa [HasTy] using h
    simp [forced, h] at hf
  | .paren e, t, t', h1, h2, v, hr, hf, h, hv =>
    eval_free e h1 h2 hr (by simpa [forced] using hf) (by simpa [HasTy] using h) hv
  | .neg e, t, t', h1, h2, v, hr, hf, h, hv => by
    rcases eval_neg (chk := false) (Γ := Γ) (ρ := ρ) (e := e) (t := t) with he | ⟨n, s, rfl⟩
    · rcases eval_neg (chk := false) (Γ := Γ) (ρ := ρ) (e := e) (t := t') with he' | ⟨n, s, rfl⟩
      · rw [he] at hv
        simp only [Option.bind_eq_bind, Option.bind_eq_some_iff] at hv
        obtain ⟨x, hx, hv⟩ := hv
        have ht : HasTy Γ e (.int t) ∨ ∃ n s, e = .lit n s := by
          cases e <;> first | exact .inr ⟨_, _, rfl⟩ | (left; rw [HasTy] at h; exact h.2; all_goals simp)
        rcases ht with ht | ⟨n, s, rfl⟩
        · obtain ⟨y, hy, hy'⟩ := eval_free e h1 h2 hr (by simpa [forced] using hf) ht hx
          obtain ⟨w, hw, hw'⟩ := ofInt_result h2 (-y)
          obtain ⟨u, hu, hu'⟩ := ofInt_result h1 (-x)
          rw [hu] at hv; cases hv
          exact ⟨w, by rw [he', hy]; exact hw, by rw [hw', hu', BitVec.ofInt_neg, BitVec.ofInt_neg, hy']⟩
        · exact ⟨-n, rfl, by rw [← he] at *; cases hx; obtain ⟨u, hu, hu'⟩ := ofInt_result h1 (-(n : Int)); rw [hu] at hv; cases hv; exact hu'.symm⟩
      · exact ⟨v, hv, rfl⟩
    · exact ⟨v, hv, rfl⟩
  | .not e, t, t', h1, h2, v, hr, hf, h, hv => by
    simp only [eval, Option.bind_eq_bind, Option.bind_eq_some_iff] at hv
    obtain ⟨x, hx, hv⟩ := hv
    cases hv
    obtain ⟨y, hy, hy'⟩ := eval_free e h1 h2 hr (by simpa [forced] using hf) (by simpa [HasTy] using h) hx
    refine ⟨t'.wrap (-y - 1), by simp [eval, hy], ?_⟩
    rw [ofInt_wrap h2, ofInt_wrap h1, Int.sub_eq_add_neg, Int.sub_eq_add_neg, BitVec.ofInt_add, BitVec.ofInt_add, BitVec.ofInt_neg (n := y), BitVec.ofInt_neg (n := x), hy']
  | .cast e s, t, t', _, _, v, _, hf, h, hv => by
    simp only [HasTy] at h
    rw [show forced Γ (.cast e s) = intTy s from rfl, h.1] at hf
    cases hf
  | .bin o l r, t, t', h1, h2, v, hr, hf, h, hv => by
    obtain ⟨ho, hrl, hrr⟩ := hr
    rw [hasTy_bin ho.not_shift] at h
    rw [forced_bin ho.not_shift] at hf
    have hfl : forced Γ l = none := by
      cases hl : forced Γ l with
      | none => rfl
      | some s => rw [hl] at hf; cases hf
    have hfr : forced Γ r = none := by rw [hfl] at hf; exact hf
    rw [eval_bin ho.not_shift] at hv
    simp only [Option.bind_eq_bind, Option.bind_eq_some_iff] at hv
    obtain ⟨a, ha, b, hb, hv⟩ := hv
    obtain ⟨a', ha', haa⟩ := eval_free l h1 h2 hrl hfl h.1 ha
    obtain ⟨b', hb', hbb⟩ := eval_free r h1 h2 hrr hfr h.2 hb
    obtain ⟨w, hw, hw'⟩ := ring_apply ho h1 h2 haa hbb hv
    exact ⟨w, by rw [eval_bin ho.not_shift, ha', hb']; exact hw, hw'⟩
  | .float _, _, _, _, _, _, _, _, _, hv | .deref _, _, _, _, _, _, _, _, _, hv | .ref _, _, _, _, _, _, _, _, _, hv
  | .method _ _, _, _, _, _, _, _, _, _, hv => by simp [eval] at hv

theorem castLast_cast_ring (e : Expr) {t : IntTy} {v : Int} (h : HasTy Γ e (.int t)) (hc : t = i32 ∨ forced Γ e = some t)
    (hv : eval false Γ ρ e t = some v) : ∃ w, eval false Γ ρ (.cast e "i32") i32 = some w ∧ BitVec.ofInt 32 w = BitVec.ofInt 32 v := by
  have ht : typeFor Γ i32 e = t := by
    rcases hc with rfl | hc
    · exact typeFor_i32 e h
    · clear hv h
      induction e with
      | paren e ih | neg e ih | not e ih => simpa [typeFor, forced] using ih (by simpa [forced] using hc)
      | _ => simp [typeFor, hc]
  exact ⟨i32.wrap v, by simp [eval, ht, hv], ofInt_wrap (by decide) v⟩

theorem castLast_ring' : ∀ (e : Expr) {t : IntTy} {v : Int}, 32 ≤ t.bits → e.LastRing → HasTy Γ e (.int t) →
    (t = i32 ∨ forced Γ e = some t) → HasTy Γ (e.castLast "i32") (.int i32) → eval false Γ ρ e t = some v →
    ∃ w, eval false Γ ρ (e.castLast "i32") i32 = some w ∧ BitVec.ofInt 32 w = BitVec.ofInt 32 v
  | .bin o l r, t, v, h1, ⟨ho, hl, hr⟩, h, hc, h', hv => by
    rw [Expr.castLast, hasTy_bin ho.not_shift] at h'
    rw [hasTy_bin ho.not_shift] at h
    rw [eval_bin ho.not_shift] at hv
    simp only [Option.bind_eq_bind, Option.bind_eq_some_iff] at hv
    obtain ⟨a, ha, b, hb, hv⟩ := hv
    have hcr : t = i32 ∨ (forced Γ l = none ∧ forced Γ r = some t) := by
      rcases hc with hc | hc
      · exact .inl hc
      · cases hfl : forced Γ l with
        | some s => exact .inl ((forced_eq l h.1 hfl).symm.trans (forced_eq l h'.1 hfl))
        | none =>
          rw [forced_bin ho.not_shift, hfl] at hc
          exact .inr ⟨rfl, hc⟩
    obtain ⟨b', hb', hbb⟩ := castLast_ring' r h1 hr h.2 (hcr.imp_right And.right) h'.2 hb
    have : ∃ a', eval false Γ ρ l i32 = some a' ∧ BitVec.ofInt 32 a' = BitVec.ofInt 32 a := by
      rcases hcr with rfl | ⟨hf, -⟩
      · exact ⟨a, ha, rfl⟩
      · exact eval_free l h1 (by decide) hl hf h.1 ha
    obtain ⟨a', ha', haa⟩ := this
    obtain ⟨w, hw, hw'⟩ := ring_apply (t' := i32) ho h1 (by decide) haa hbb hv
    exact ⟨w, by rw [Expr.castLast, eval_bin ho.not_shift, ha', hb']; exact hw, hw'⟩
  | .lit _ _, _, _, _, _, h, hc, _, hv | .float _, _, _, _, _, h, hc, _, hv | .var _, _, _, _, _, h, hc, _, hv
  | .paren _, _, _, _, _, h, hc, _, hv | .method _ _, _, _, _, _, h, hc, _, hv | .neg _, _, _, _, _, h, hc, _, hv
  | .not _, _, _, _, _, h, hc, _, hv | .deref _, _, _, _, _, h, hc, _, hv | .ref _, _, _, _, _, h, hc, _, hv
  | .cast _ _, _, _, _, _, h, hc, _, hv => castLast_cast_ring _ h hc hv

theorem castLast_ring (hρ : Typed Γ ρ) (e : Expr) {t : IntTy} {v : Int} (h1 : 32 ≤ t.bits) (hr : e.LastRing) (h : HasTy Γ e (.int t))
    (hc : t = i32 ∨ forced Γ e = some t) (h' : HasTy Γ (e.castLast "i32") (.int i32)) (hv : eval false Γ ρ e t = some v) :
    eval false Γ ρ (e.castLast "i32") i32 = some (i32.wrap v) := by
  obtain ⟨w, hw, hw'⟩ := castLast_ring' e h1 hr h hc h' hv
  rw [hw, ← wrap_eq_iff.2 hw', wrap_self (eval_fits hρ _ h' hw)]

/-! ### Overflow checks -/

theorem result_checked {t : IntTy} (h : t.result true v = some w) : t.result false v = some w := by
  unfold IntTy.result at h ⊢
  split at h
  · rename_i hf; rw [if_pos hf]; exact h
  · cases h

theorem apply_checked {o : BinOp} {t : IntTy} (h : o.apply true t a b = some w) : o.apply false t a b = some w := by
  cases o with
  | add | sub | mul => exact result_checked h
  | div | rem | and | or | xor => exact h
  | shl | shr =>
    simp only [BinOp.apply] at h ⊢
    split at h
    · cases h
    · simpa using h

/-- A value that is found with overflow checks is found without. -/
theorem eval_checked : ∀ (e : Expr) {t : IntTy} {v : Int}, eval true Γ ρ e t = some v → eval false Γ ρ e t = some v
  | .lit n x, _, _, h => h
  | .var x, _, _, h => h
  | .paren e, _, _, h => eval_checked e h
  | .neg e, t, v, hv => by
    rcases eval_neg (chk := true) (Γ := Γ) (ρ := ρ) (e := e) (t := t) with he | ⟨n, s, rfl⟩
    · rcases eval_neg (chk := false) (Γ := Γ) (ρ := ρ) (e := e) (t := t) with he' | ⟨n, s, rfl⟩
      · rw [he] at hv
        simp only [Option.bind_eq_bind, Option.bind_eq_some_iff] at hv
        obtain ⟨x, hx, hv⟩ := hv
        rw [he', eval_checked e hx]
        exact result_checked hv
      · exact hv
    · exact hv
  | .not e, t, v, hv => by
    simp only [eval, Option.bind_eq_bind, Option.bind_eq_some_iff] at hv
    obtain ⟨x, hx, hv⟩ := hv
    simp only [eval, eval_checked e hx]
    exact hv
  | .cast e s, t, v, hv => by
    simp only [eval, Option.bind_eq_bind, Option.bind_eq_some_iff] at hv
    obtain ⟨x, hx, hv⟩ := hv
    simp only [eval, eval_checked e hx]
    exact hv
  | .bin o l r, t, v, hv => by
    by_cases ho : o.Shift
    · cases o <;> first | exact ho.elim | skip
      all_goals
        simp only [eval, Option.bind_eq_bind, Option.bind_eq_some_iff] at hv
        obtain ⟨a, ha, b, hb, hv⟩ := hv
        simp only [eval, eval_checked l ha, eval_checked r hb]
        exact apply_checked hv
    · rw [eval_bin ho] at hv ⊢
      simp only [Option.bind_eq_bind, Option.bind_eq_some_iff] at hv
      obtain ⟨a, ha, b, hb, hv⟩ := hv
      rw [eval_checked l ha, eval_checked r hb]
      exact apply_checked hv
  | .float _, _, _, hv | .deref _, _, _, hv | .ref _, _, _, hv | .method _ _, _, _, hv => by simp [eval] at hv

/-! ### Literals -/

theorem numeral_is (n : Int) (s : String) : Is (Monoasm.intTokens n s) (numeral n s) := by
  unfold Monoasm.intTokens numeral
  split
  · exact Is.of_proper (e := .neg (.lit n.natAbs s)) ⟨trivial, by simp [Expr.level]⟩
  · exact Is.of_proper (e := .lit n.natAbs s) trivial

theorem numeral_eval {chk : Bool} {Γ : Ctx} {ρ : String → Int} {t : IntTy} (n : Int) (s : String) : eval chk Γ ρ (numeral n s) t = some n := by
  unfold numeral
  split <;> simp only [eval, Option.some.injEq] <;> omega

end Rust
