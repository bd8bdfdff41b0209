import Verif.Spec.Rust
/-
  Reading of Rust expressions: it is deterministic, and inverse to writing.
-/

namespace Rust
open Monoasm (Tok)

theorem Stops.cast {p : Nat} (h : Stops p ts) (hc : castOf ts = some x) (hp : p ≤ 7) : False := by
  rcases h.1 with h | h
  · rw [h] at hc; cases hc
  · omega

theorem Stops.op {p : Nat} (h : Stops p ts) (ho : opOf ts = some (o, ts')) (hp : p ≤ o.level) : False := by
  have := h.2 _ _ ho
  omega

theorem castOf_op (h : castOf ts = some x) : opOf ts = none := by
  unfold castOf at h
  split at h
  · rfl
  · cases h

theorem det (h : Reads m ts e rest) : ∀ {e' rest'}, Reads m ts e' rest' → e = e' ∧ rest = rest' := by
  induction h with
  | neg _ ih | not _ ih | deref _ ih | ref _ ih =>
    intro e' rest' h'
    cases h' with
    | _ h' => obtain ⟨rfl, rfl⟩ := ih h'; exact ⟨rfl, rfl⟩
  | lit _ ih | float _ ih | var _ ih =>
    intro e' rest' h'
    cases h' with
    | _ h' => exact ih h'
  | paren _ _ ih1 ih2 =>
    intro e' rest' h'
    cases h' with
    | paren h1 h2 => obtain ⟨rfl, -⟩ := ih1 h1; exact ih2 h2
  | method hd _ ih =>
    intro e' rest' h'
    cases h' with
    | method hd' h' =>
      rw [hd] at hd'; cases hd'
      exact ih h'
    | atom hd' => rw [hd] at hd'; cases hd'
  | atom hd =>
    intro e' rest' h'
    cases h' with
    | method hd' h' => rw [hd] at hd'; cases hd'
    | atom => exact ⟨rfl, rfl⟩
  | expr _ _ ih1 ih2 =>
    intro e' rest' h'
    cases h' with
    | expr h1 h2 => obtain ⟨rfl, rfl⟩ := ih1 h1; exact ih2 h2
  | cast hc hp _ ih =>
    intro e' rest' h'
    cases h' with
    | cast hc' _ h' => rw [hc] at hc'; cases hc'; exact ih h'
    | bin ho => rw [castOf_op hc] at ho; cases ho
    | stop hs => exact (hs.cast hc hp).elim
  | bin ho hp _ _ ih1 ih2 =>
    intro e' rest' h'
    cases h' with
    | cast hc => rw [castOf_op hc] at ho; cases ho
    | bin ho' _ h1 h2 =>
      rw [ho] at ho'; cases ho'
      obtain ⟨rfl, rfl⟩ := ih1 h1
      exact ih2 h2
    | stop hs => exact (hs.op ho hp).elim
  | stop hs =>
    intro e' rest' h'
    cases h' with
    | cast hc hp => exact (hs.cast hc hp).elim
    | bin ho hp => exact (hs.op ho hp).elim
    | stop => exact ⟨rfl, rfl⟩

theorem Is.det (h : Is ts e) (h' : Is ts e') : e = e' := (Rust.det h h').1

/-! ### What is read is the text of the expression -/

theorem opOf_text (h : opOf ts = some (o, ts')) : ts = o.text ++ ts' := by
  unfold opOf at h
  split at h <;> first | (cases h; rfl) | cases h

theorem castOf_text (h : castOf ts = some (t, ts')) : ts = .other "as" :: .ident t :: ts' := by
  unfold castOf at h
  split at h
  · cases h; rfl
  · cases h

theorem dotOf_text (h : dotOf ts = some (m, ts')) : ts = .punct '.' :: .ident m :: .group .paren [] :: ts' := by
  unfold dotOf at h
  split at h
  · cases h; rfl
  · cases h

theorem level_le (o : BinOp) : o.level ≤ 6 := by cases o <;> decide
theorem level_pos (o : BinOp) : 1 ≤ o.level := by cases o <;> decide

/-- What holds after reading in a mode. -/
def Sound : Mode → List Tok → Expr → List Tok → Prop
  | .unary, ts, e, rest => ts = e.text ++ rest ∧ e.Proper ∧ 8 ≤ e.level
  | .post e0, ts, e, rest => e0.Proper → 9 ≤ e0.level → e0.text ++ ts = e.text ++ rest ∧ e.Proper ∧ 9 ≤ e.level
  | .expr p, ts, e, rest => ts = e.text ++ rest ∧ e.Proper ∧ Stops p rest ∧ min p 7 ≤ e.level
  | .loop l p, ts, e, rest => l.Proper → Stops (l.level + 1) ts → min p 7 ≤ l.level →
      l.text ++ ts = e.text ++ rest ∧ e.Proper ∧ Stops p rest ∧ min p 7 ≤ e.level

theorem sound (h : Reads m ts e rest) : Sound m ts e rest := by
  induction h with
  | neg _ ih | not _ ih | deref _ ih | ref _ ih =>
    obtain ⟨h1, h2, h3⟩ := ih
    exact ⟨by rw [h1]; rfl, ⟨h2, h3⟩, Nat.le_refl _⟩
  | lit _ ih | float _ ih | var _ ih =>
    obtain ⟨h1, h2, h3⟩ := ih trivial (Nat.le_refl _)
    exact ⟨h1, h2, by omega⟩
  | paren _ _ ih1 ih2 =>
    obtain ⟨h1, h2, -, -⟩ := ih1
    obtain ⟨h4, h5, h6⟩ := ih2 h2 (Nat.le_refl _)
    rw [List.append_nil] at h1
    subst h1
    exact ⟨h4, h5, by omega⟩
  | method hd _ ih =>
    intro hp hl
    obtain ⟨h4, h5, h6⟩ := ih ⟨hp, hl⟩ (Nat.le_refl _)
    refine ⟨?_, h5, h6⟩
    rw [dotOf_text hd, ← h4]
    simp [Expr.text]
  | atom => intro hp hl; exact ⟨rfl, hp, hl⟩
  | expr _ _ ih1 ih2 =>
    obtain ⟨h1, h2, h3⟩ := ih1
    obtain ⟨h4, h5, h6, h7⟩ := ih2 h2 ⟨.inr (by omega), fun o _ _ => by have := level_le o; omega⟩ (by omega)
    exact ⟨by rw [h1, h4], h5, h6, h7⟩
  | @cast ts t ts' p l e rest hc hp _ ih =>
    intro h1 h2 h3
    have hl : 7 ≤ l.level := by
      rcases h2.1 with h | h
      · rw [h] at hc; cases hc
      · omega
    obtain ⟨h4, h5, h6, h7⟩ := ih ⟨h1, hl⟩ ⟨.inr (by simp [Expr.level]), fun o _ _ => by have := level_le o; simp only [Expr.level]; omega⟩
      (by simp only [Expr.level]; omega)
    refine ⟨?_, h5, h6, h7⟩
    rw [castOf_text hc, ← h4]
    simp [Expr.text]
  | @bin ts o ts' p r ts'' l e rest ho hp _ _ ih1 ih2 =>
    intro h1 h2 h3
    have hl := h2.2 _ _ ho
    have := level_le o
    obtain ⟨h4, h5, h6, h7⟩ := ih1
    obtain ⟨h8, h9, h10, h11⟩ := ih2 ⟨h1, h5, by omega, by omega⟩ h6 (by simp only [Expr.level]; omega)
    refine ⟨?_, h9, h10, h11⟩
    rw [opOf_text ho, ← h8, h4]
    simp [Expr.text]
  | stop hs => intro h1 h2 h3; exact ⟨rfl, h1, hs, h3⟩

theorem Is.text (h : Is ts e) : ts = e.text := by
  have := (sound h).1
  rwa [List.append_nil] at this

theorem Is.proper (h : Is ts e) : e.Proper := (sound h).2.1

/-! ### The text of an expression is read as it -/

theorem opOf_op (o : BinOp) (ts : List Tok) : opOf (o.text ++ ts) = some (o, ts) := by cases o <;> rfl
theorem castOf_of (o : BinOp) (ts : List Tok) : castOf (o.text ++ ts) = none := by cases o <;> rfl
theorem dotOf_op (o : BinOp) (ts : List Tok) : dotOf (o.text ++ ts) = none := by cases o <;> rfl

theorem stops_op {p : Nat} (o : BinOp) (ts : List Tok) (h : o.level < p) : Stops p (o.text ++ ts) :=
  ⟨.inl (castOf_of o ts), fun _ _ ho => by rw [opOf_op] at ho; cases ho; exact h⟩

theorem stops_nil (p : Nat) : Stops p [] := ⟨.inl rfl, fun _ _ h => by cases h⟩

theorem Stops.mono {p q : Nat} (h : Stops p ts) (hq : p ≤ q) : Stops q ts :=
  ⟨h.1.imp_right fun _ => by omega, fun o ts' ho => by have := h.2 o ts' ho; omega⟩

/-- What may follow the text of an expression. -/
def Follow (e : Expr) (rest : List Tok) : Prop := Stops (e.level + 1) rest ∧ (dotOf rest = none ∨ 9 ≤ e.level)

theorem complete : ∀ (e : Expr), e.Proper → ∀ rest,
    (9 ≤ e.level → ∀ e' rest', Reads (.post e) rest e' rest' → Reads .unary (e.text ++ rest) e' rest') ∧
    (8 ≤ e.level → dotOf rest = none → Reads .unary (e.text ++ rest) e rest) ∧
    (dotOf rest = none → Stops (e.level + 1) rest → ∀ p, p ≤ e.level → ∀ e' rest', Reads (.loop e p) rest e' rest' →
      Reads (.expr p) (e.text ++ rest) e' rest')
  | .lit n s, _, rest =>
    have h1 : ∀ e' rest', Reads (.post (.lit n s)) rest e' rest' → Reads .unary (Expr.text (.lit n s) ++ rest) e' rest' :=
      fun _ _ h => .lit h
    ⟨fun _ => h1, fun _ hd => h1 _ _ (.atom hd), fun hd _ _ _ _ _ h => .expr (h1 _ _ (.atom hd)) h⟩
  | .float b, _, rest =>
    have h1 : ∀ e' rest', Reads (.post (.float b)) rest e' rest' → Reads .unary (Expr.text (.float b) ++ rest) e' rest' :=
      fun _ _ h => .float h
    ⟨fun _ => h1, fun _ hd => h1 _ _ (.atom hd), fun hd _ _ _ _ _ h => .expr (h1 _ _ (.atom hd)) h⟩
  | .var x, _, rest =>
    have h1 : ∀ e' rest', Reads (.post (.var x)) rest e' rest' → Reads .unary (Expr.text (.var x) ++ rest) e' rest' :=
      fun _ _ h => .var h
    ⟨fun _ => h1, fun _ hd => h1 _ _ (.atom hd), fun hd _ _ _ _ _ h => .expr (h1 _ _ (.atom hd)) h⟩
  | .paren e, hp, rest =>
    have hi : Reads (.expr 0) e.text e [] := by
      have := (complete e hp []).2.2 rfl (stops_nil _) 0 (Nat.zero_le _) e [] (.stop (stops_nil _))
      rwa [List.append_nil] at this
    have h1 : ∀ e' rest', Reads (.post (.paren e)) rest e' rest' → Reads .unary (Expr.text (.paren e) ++ rest) e' rest' :=
      fun _ _ h => .paren hi h
    ⟨fun _ => h1, fun _ hd => h1 _ _ (.atom hd), fun hd _ _ _ _ _ h => .expr (h1 _ _ (.atom hd)) h⟩
  | .method e m, hp, rest =>
    have h1 : ∀ e' rest', Reads (.post (.method e m)) rest e' rest' → Reads .unary (Expr.text (.method e m) ++ rest) e' rest' := by
      intro e' rest' h
      have := (complete e hp.1 (.punct '.' :: .ident m :: .group .paren [] :: rest)).1 hp.2 e' rest' (.method rfl h)
      simpa [Expr.text] using this
    ⟨fun _ => h1, fun _ hd => h1 _ _ (.atom hd), fun hd _ _ _ _ _ h => .expr (h1 _ _ (.atom hd)) h⟩
  | .neg e, hp, rest =>
    have h1 : dotOf rest = none → Reads .unary (Expr.text (.neg e) ++ rest) (.neg e) rest :=
      fun hd => .neg ((complete e hp.1 rest).2.1 hp.2 hd)
    ⟨fun h => absurd h (by simp [Expr.level]), fun _ hd => h1 hd, fun hd _ _ _ _ _ h => .expr (h1 hd) h⟩
  | .not e, hp, rest =>
    have h1 : dotOf rest = none → Reads .unary (Expr.text (.not e) ++ rest) (.not e) rest :=
      fun hd => .not ((complete e hp.1 rest).2.1 hp.2 hd)
    ⟨fun h => absurd h (by simp [Expr.level]), fun _ hd => h1 hd, fun hd _ _ _ _ _ h => .expr (h1 hd) h⟩
  | .deref e, hp, rest =>
    have h1 : dotOf rest = none → Reads .unary (Expr.text (.deref e) ++ rest) (.deref e) rest :=
      fun hd => .deref ((complete e hp.1 rest).2.1 hp.2 hd)
    ⟨fun h => absurd h (by simp [Expr.level]), fun _ hd => h1 hd, fun hd _ _ _ _ _ h => .expr (h1 hd) h⟩
  | .ref e, hp, rest =>
    have h1 : dotOf rest = none → Reads .unary (Expr.text (.ref e) ++ rest) (.ref e) rest :=
      fun hd => .ref ((complete e hp.1 rest).2.1 hp.2 hd)
    ⟨fun h => absurd h (by simp [Expr.level]), fun _ hd => h1 hd, fun hd _ _ _ _ _ h => .expr (h1 hd) h⟩
  | .cast e t, hp, rest => by
    refine ⟨fun h => absurd h (by simp [Expr.level]), fun h => absurd h (by simp [Expr.level]), ?_⟩
    intro hd hs p hpl e' rest' h
    have hpl : p ≤ 7 := hpl
    have hl := hp.2
    have := (complete e hp.1 (.other "as" :: .ident t :: rest)).2.2 rfl
      ⟨.inr (by omega), fun _ _ h => by cases h⟩ p (by omega) e' rest' (.cast rfl hpl h)
    simpa [Expr.text] using this
  | .bin o l r, hp, rest => by
    have ho := level_le o
    refine ⟨fun h => absurd h (by simp only [Expr.level]; omega), fun h => absurd h (by simp only [Expr.level]; omega), ?_⟩
    intro hd hs p hpl e' rest' h
    obtain ⟨hl, hr, hl', hr'⟩ := hp
    have hpl : p ≤ o.level := hpl
    have hs : Stops (o.level + 1) rest := hs
    have h2 : Reads (.expr (o.level + 1)) (r.text ++ rest) r rest :=
      (complete r hr rest).2.2 hd (hs.mono (by omega)) _ hr' _ _ (.stop hs)
    have := (complete l hl (o.text ++ (r.text ++ rest))).2.2 (dotOf_op _ _) (stops_op _ _ (by omega)) p (by omega) e' rest'
      (.bin (opOf_op _ _) hpl h2 h)
    simpa [Expr.text] using this

theorem Is.of_proper {e : Expr} (h : e.Proper) : Is e.text e := by
  have := (complete e h []).2.2 rfl (stops_nil _) 0 (Nat.zero_le _) e [] (.stop (stops_nil _))
  rwa [List.append_nil] at this

/-! ### Conversion of the last operand -/

theorem castLast_level (e : Expr) (t : String) : min e.level 7 ≤ (e.castLast t).level := by
  cases e <;> simp [Expr.castLast, Expr.level] <;> omega

theorem castLast_proper (t : String) : ∀ e : Expr, e.Proper → (e.castLast t).Proper
  | .bin o l r, ⟨hl, hr, hl', hr'⟩ => by
    have := castLast_level r t
    have := level_le o
    exact ⟨hl, castLast_proper t r hr, hl', by omega⟩
  | .lit _ _, h | .float _, h | .var _, h | .paren _, h | .method _ _, h | .neg _, h | .not _, h | .deref _, h | .ref _, h
  | .cast _ _, h => ⟨h, by simp [Expr.level]⟩

theorem castLast_text (t : String) : ∀ e : Expr, (e.castLast t).text = e.text ++ [.other "as", .ident t]
  | .bin o l r => by simp [Expr.castLast, Expr.text, castLast_text t r]
  | .lit _ _ | .float _ | .var _ | .paren _ | .method _ _ | .neg _ | .not _ | .deref _ | .ref _
  | .cast _ _ => rfl

theorem Is.castLast (h : Is ts e) (t : String) : Is (ts ++ [.other "as", .ident t]) (e.castLast t) := by
  have := Is.of_proper (castLast_proper t e h.proper)
  rwa [castLast_text, ← h.text] at this

end Rust
