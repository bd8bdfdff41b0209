import Verif.Spec.RustRead
import Verif.Proofs.Rust2
/-
  The reader of Rust expressions agrees with the relation `Reads`.
-/

namespace Rust
open Monoasm (Tok)

theorem read_sound : ∀ (n : Nat) {m : Mode} {ts : List Tok} {e : Expr} {rest : List Tok},
    read n m ts = some (e, rest) → Reads m ts e rest
  | 0, _, _, _, _, h => by simp [read] at h
  | n + 1, .unary, ts, e, rest, h => by
    simp only [read] at h
    split at h
    · simp only [Option.map_eq_some_iff, Prod.mk.injEq, Prod.exists] at h
      obtain ⟨a, b, h, rfl, rfl⟩ := h
      exact .neg (read_sound n h)
    · simp only [Option.map_eq_some_iff, Prod.mk.injEq, Prod.exists] at h
      obtain ⟨a, b, h, rfl, rfl⟩ := h
      exact .not (read_sound n h)
    · simp only [Option.map_eq_some_iff, Prod.mk.injEq, Prod.exists] at h
      obtain ⟨a, b, h, rfl, rfl⟩ := h
      exact .deref (read_sound n h)
    · simp only [Option.map_eq_some_iff, Prod.mk.injEq, Prod.exists] at h
      obtain ⟨a, b, h, rfl, rfl⟩ := h
      exact .ref (read_sound n h)
    · exact .lit (read_sound n h)
    · exact .float (read_sound n h)
    · exact .var (read_sound n h)
    · split at h
      · rename_i h1
        exact .paren (read_sound n h1) (read_sound n h)
      · cases h
    · cases h
  | n + 1, .post e', ts, e, rest, h => by
    simp only [read] at h
    split at h
    · rename_i h1
      exact .method h1 (read_sound n h)
    · rename_i h1
      cases h
      exact .atom h1
  | n + 1, .expr p, ts, e, rest, h => by
    simp only [read] at h
    split at h
    · rename_i h1
      exact .expr (read_sound n h1) (read_sound n h)
    · cases h
  | n + 1, .loop l p, ts, e, rest, h => by
    simp only [read] at h
    split at h
    · rename_i hc
      split at h
      · rename_i hp
        exact .cast hc hp (read_sound n h)
      · cases h
        refine .stop ⟨.inr (by omega), fun o ts' ho => ?_⟩
        rw [castOf_op hc] at ho; cases ho
    · rename_i hc
      split at h
      · rename_i ho
        split at h
        · rename_i hp
          split at h
          · rename_i h1
            exact .bin ho hp (read_sound n h1) (read_sound n h)
          · cases h
        · rename_i hp
          cases h
          refine .stop ⟨.inl hc, fun o ts' ho' => ?_⟩
          rw [ho] at ho'; cases ho'
          omega
      · rename_i ho
        cases h
        refine .stop ⟨.inl hc, fun o ts' ho' => ?_⟩
        rw [ho] at ho'; cases ho'

theorem castOf_size (h : castOf ts = some (t, ts')) : size ts = size ts' + 2 := by
  rw [castOf_text h]; simp [size, sizeOne]; try omega

theorem opOf_size (h : opOf ts = some (o, ts')) : size ts' + 1 ≤ size ts := by
  rw [opOf_text h]; cases o <;> simp [BinOp.text, size, sizeOne] <;> omega

theorem dotOf_size (h : dotOf ts = some (m, ts')) : size ts' + 3 ≤ size ts := by
  rw [dotOf_text h]; simp [size, sizeOne]; try omega

/-- Tokens that must be there. -/
def Mode.least : Mode → Nat
  | .unary => 1
  | .expr _ => 1
  | _ => 0

/-- Calls besides those counted by the tokens. -/
def Mode.extra : Mode → Nat
  | .unary => 0
  | _ => 1

theorem read_complete (h : Reads m ts e rest) :
    size rest + m.least ≤ size ts ∧ ∀ n, 4 * (size ts - size rest) + m.extra ≤ n → read n m ts = some (e, rest) := by
  induction h with
  | neg _ ih | not _ ih | deref _ ih | ref _ ih =>
    obtain ⟨h1, h2⟩ := ih
    simp only [Mode.least, Mode.extra, size, sizeOne] at *
    refine ⟨by omega, fun n hn => ?_⟩
    obtain ⟨k, rfl⟩ : ∃ k, n = k + 1 := ⟨n - 1, by omega⟩
    simp [read, h2 k (by omega)]
  | lit _ ih | float _ ih | var _ ih =>
    obtain ⟨h1, h2⟩ := ih
    simp only [Mode.least, Mode.extra, size, sizeOne] at *
    refine ⟨by omega, fun n hn => ?_⟩
    obtain ⟨k, rfl⟩ : ∃ k, n = k + 1 := ⟨n - 1, by omega⟩
    simp [read, h2 k (by omega)]
  | paren _ _ ih1 ih2 =>
    obtain ⟨h1, h2⟩ := ih1
    obtain ⟨h3, h4⟩ := ih2
    simp only [Mode.least, Mode.extra, size, sizeOne] at *
    refine ⟨by omega, fun n hn => ?_⟩
    obtain ⟨k, rfl⟩ : ∃ k, n = k + 1 := ⟨n - 1, by omega⟩
    simp [read, h2 k (by omega), h4 k (by omega)]
  | method hd _ ih =>
    obtain ⟨h1, h2⟩ := ih
    have := dotOf_size hd
    simp only [Mode.least, Mode.extra] at *
    refine ⟨by omega, fun n hn => ?_⟩
    obtain ⟨k, rfl⟩ : ∃ k, n = k + 1 := ⟨n - 1, by omega⟩
    simp [read, hd, h2 k (by omega)]
  | atom hd =>
    simp only [Mode.least, Mode.extra] at *
    refine ⟨by omega, fun n hn => ?_⟩
    obtain ⟨k, rfl⟩ : ∃ k, n = k + 1 := ⟨n - 1, by omega⟩
    simp [read, hd]
  | expr _ _ ih1 ih2 =>
    obtain ⟨h1, h2⟩ := ih1
    obtain ⟨h3, h4⟩ := ih2
    simp only [Mode.least, Mode.extra] at *
    refine ⟨by omega, fun n hn => ?_⟩
    obtain ⟨k, rfl⟩ : ∃ k, n = k + 1 := ⟨n - 1, by omega⟩
    simp [read, h2 k (by omega), h4 k (by omega)]
  | cast hc hp _ ih =>
    obtain ⟨h1, h2⟩ := ih
    have := castOf_size hc
    simp only [Mode.least, Mode.extra] at *
    refine ⟨by omega, fun n hn => ?_⟩
    obtain ⟨k, rfl⟩ : ∃ k, n = k + 1 := ⟨n - 1, by omega⟩
    simp [read, hc, hp, h2 k (by omega)]
  | @bin ts o _ _ _ _ _ _ _ ho hp _ _ ih1 ih2 =>
    obtain ⟨h1, h2⟩ := ih1
    obtain ⟨h3, h4⟩ := ih2
    have := opOf_size ho
    have hc : castOf ts = none := by
      cases hc : castOf ts with
      | none => rfl
      | some x => rw [castOf_op hc] at ho; cases ho
    simp only [Mode.least, Mode.extra] at *
    refine ⟨by omega, fun n hn => ?_⟩
    obtain ⟨k, rfl⟩ : ∃ k, n = k + 1 := ⟨n - 1, by omega⟩
    simp [read, hc, ho, hp, h2 k (by omega), h4 k (by omega)]
  | @stop p ts l hs =>
    simp only [Mode.least, Mode.extra] at *
    refine ⟨by omega, fun n hn => ?_⟩
    obtain ⟨k, rfl⟩ : ∃ k, n = k + 1 := ⟨n - 1, by omega⟩
    simp only [read]
    split
    · rename_i hc
      rw [if_neg fun hp => hs.cast hc hp]
    · split
      · rename_i ho
        rw [if_neg fun hp => hs.op ho hp]
      · rfl

theorem front_iff : front ts = some (e, rest) ↔ Reads (.expr 0) ts e rest :=
  ⟨read_sound _, fun h => (read_complete h).2 _ (by simp only [Mode.extra]; omega)⟩

theorem whole_iff : whole ts = some e ↔ Is ts e := by
  unfold whole
  split
  · rename_i h
    rw [front_iff] at h
    exact ⟨fun h' => by cases h'; exact h, fun h' => by rw [h'.det h]⟩
  · rename_i h
    refine ⟨fun h' => (by cases h'), fun h' => ?_⟩
    exact absurd (front_iff.2 h') (h e)

theorem readExpr_iff : readExpr ts = some (pre, rest) ↔ ∃ e, Reads (.expr 0) ts e rest ∧ pre = e.text := by
  simp only [readExpr, Option.map_eq_some_iff, Prod.exists, Prod.mk.injEq]
  constructor
  · rintro ⟨e, r, h, rfl, rfl⟩
    exact ⟨e, front_iff.1 h, rfl⟩
  · rintro ⟨e, h, rfl⟩
    exact ⟨e, rest, front_iff.2 h, rfl, rfl⟩

/-! ### Values depend on the variables that are named -/

variable {Γ Γ' : Ctx} {ρ ρ' : String → Int} {chk : Bool}

theorem forced_congr : ∀ (e : Expr), (∀ x ∈ e.names, Γ x = Γ' x) → forced Γ e = forced Γ' e := by
  intro e
  induction e with
  | var x => intro h; simp [forced, h x (by simp [Expr.names])]
  | paren e ih | neg e ih | not e ih => intro h; simpa [forced] using ih h
  | bin o l r ih1 ih2 =>
    intro h
    have h1 := ih1 fun x hx => h x (List.mem_append_left _ hx)
    have h2 := ih2 fun x hx => h x (List.mem_append_right _ hx)
    cases o <;> simp [forced, h1, h2]
  | _ => intro h; rfl

theorem typeFor_congr (t : IntTy) : ∀ (e : Expr), (∀ x ∈ e.names, Γ x = Γ' x) → typeFor Γ t e = typeFor Γ' t e := by
  intro e
  induction e with
  | paren e ih | neg e ih | not e ih => intro h; simpa [typeFor] using ih h
  | lit n s => intro h; rfl
  | _ => intro h; simp [typeFor, forced_congr _ h]

theorem eval_congr : ∀ (e : Expr) (t : IntTy), (∀ x ∈ e.names, Γ x = Γ' x ∧ ρ x = ρ' x) → eval chk Γ ρ e t = eval chk Γ' ρ' e t := by
  intro e
  induction e with
  | var x => intro t h; simp [eval, (h x (by simp [Expr.names])).2]
  | paren e ih | not e ih => intro t h; simp [eval, ih t h]
  | neg e ih =>
    intro t h
    rw [eval.eq_def, eval.eq_def]
    have := ih t h
    cases e <;> simp_all
  | cast e s ih =>
    intro t h
    simp [eval, typeFor_congr t e fun x hx => (h x hx).1, ih _ h]
  | bin o l r ih1 ih2 =>
    intro t h
    have h1 := fun t => ih1 t fun x hx => h x (List.mem_append_left _ hx)
    have h2 := fun t => ih2 t fun x hx => h x (List.mem_append_right _ hx)
    have h3 := forced_congr r fun x hx => (h x (List.mem_append_right _ hx)).1
    cases o <;> simp [eval, h1, h2, h3]
  | _ => intro t h; rfl

end Rust
