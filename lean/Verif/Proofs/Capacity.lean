import Verif.Spec.Capacity
import Verif.Proofs.Frame
import Verif.Proofs.Trace
/-
  When `finalize` succeeds.
-/

set_option linter.unusedSimpArgs false

namespace Monoasm
open JitMemory Spec

variable {base : Nat}

theorem pow_align (d : DataType) : ∃ k, k ≤ 4 ∧ d.align = 2 ^ k := by
  cases d
  · exact ⟨4, by decide, rfl⟩
  · exact ⟨2, by decide, rfl⟩
  · exact ⟨4, by decide, rfl⟩
  · exact ⟨3, by decide, rfl⟩
  · exact ⟨3, by decide, rfl⟩

theorem alignUp_roundUp {c k : Nat} (hk : k ≤ 63) (hc : c ≤ PAGE_SIZE) : MemPage.alignUp c (2 ^ k - 1) = roundUp c (2 ^ k) := by
  rw [alignUp_eq c k hk (by rw [PAGE_SIZE_eq] at hc; omega)]; rfl

theorem le_roundUp (c : Nat) (d : DataType) : c ≤ roundUp c d.align := by
  cases d <;> simp only [roundUp, DataType.align] <;> omega

theorem le_endOf (c xs) : c ≤ endOf c xs := by
  induction xs generalizing c with
  | nil => exact Nat.le_refl _
  | cons x xs ih =>
    have := ih (roundUp c x.1.align + x.1.size)
    have h := le_roundUp c x.1
    simp only [endOf]
    omega

theorem endOf_append (c xs ys) : endOf c (xs ++ ys) = endOf (endOf c xs) ys := by
  induction xs generalizing c with
  | nil => rfl
  | cons x xs ih => exact ih _

/-- What placing objects does to labels and cursors. -/
structure PlacedAll (p : Page) (xs : List (DataType × DestLabel)) (s s' : JitMemory) : Prop where
  cursor : ∀ q, cursor s' q = if q = p then endOf (Spec.cursor s p) xs else Spec.cursor s q
  contents : ∀ q, (s'.pages q).contents = (s.pages q).contents
  len : s'.labels.length = s.labels.length
  loc : ∀ l, (s'.locOf l).isSome ↔ (s.locOf l).isSome ∨ ∃ d, (d, l) ∈ xs
  more : ∀ l t, t ∈ targets s l → t ∈ targets s' l
  live : ∀ l t, t ∈ targets s' l → t ∈ targets s l ∨ Live t

theorem PlacedAll.refl (p s) : PlacedAll p [] s s :=
  ⟨fun q => by by_cases h : q = p <;> simp [h, endOf], fun _ => rfl, rfl, by simp, fun _ _ h => h, fun _ _ h => .inl h⟩

theorem PlacedAll.trans {p xs ys s s1 s2} (h1 : PlacedAll p xs s s1) (h2 : PlacedAll p ys s1 s2) : PlacedAll p (xs ++ ys) s s2 where
  cursor q := by
    rw [h2.cursor, endOf_append, h1.cursor, h1.cursor]
    by_cases h : q = p <;> simp [h]
  contents q := (h2.contents q).trans (h1.contents q)
  len := h2.len.trans h1.len
  loc l := by
    rw [h2.loc, h1.loc, or_assoc]
    simp only [List.mem_append, exists_or]
  more l t h := h2.more l t (h1.more l t h)
  live l t h := (h2.live l t h).elim (h1.live l t) .inr

/-- State after binding `l` at the aligned cursor. -/
def boundAt (s : JitMemory) (p : Page) (a : Nat) (l : DestLabel) : JitMemory :=
  { skipped s p (roundUp (cursor s p) a) with
    labels := s.labels.modify l fun i => { i with loc := some (p, roundUp (cursor s p) a) } }

theorem bind_aligned {β} {s : JitMemory} {k p} {l : Nat} {f : Unit → M β} (hk : k ≤ 28) (hp : p < 3) (hc : cursor s p ≤ PAGE_SIZE) :
    (alignOp k p >>= fun _ => bind_label_with_page p l >>= f) s
      = if l < s.labels.length then f () (boundAt s p (2 ^ k) l)
        else .panic .indexOutOfBounds (skipped s p (roundUp (cursor s p) (2 ^ k))) := by
  have ea : alignOp k p s = .ok () (skipped s p (roundUp (cursor s p) (2 ^ k))) := by
    rw [alignOp_run, ← alignUp_roundUp (by omega) hc]; rfl
  rw [ok_bind ea]
  simp only [bind_label_with_page]
  have e : (do checkPage p; let c ← MemPage.counterOf p; modifyLabel l fun i => { i with loc := some (p, c) } : M Unit)
      (skipped s p (roundUp (cursor s p) (2 ^ k)))
      = if l < s.labels.length then .ok () (boundAt s p (2 ^ k) l)
        else .panic .indexOutOfBounds (skipped s p (roundUp (cursor s p) (2 ^ k))) := by
    rw [ok_bind (a := ()) (s1 := skipped s p (roundUp (cursor s p) (2 ^ k))) (by simp [checkPage, hp]),
      ok_bind (a := roundUp (cursor s p) (2 ^ k)) (s1 := skipped s p (roundUp (cursor s p) (2 ^ k)))
        (by simp [MemPage.counterOf, skipped])]
    rfl
  by_cases h : l < s.labels.length
  · rw [if_pos h] at e ⊢
    exact ok_bind e
  · rw [if_neg h] at e ⊢
    exact panic_bind e

theorem emitZeros_run {p n s} (h : (s.pages p).counter + n ≤ PAGE_SIZE) :
    emitZeros p n s = .ok () (emitted s p (List.replicate n 0)) := by
  induction n generalizing s with
  | zero => simp only [emitZeros, List.replicate, emitted_nil]; rfl
  | succ n ih =>
    simp only [emitZeros]
    rw [ok_bind (a := ()) (s1 := emitted s p [0]) (by rw [emitb_run, emitRes, if_pos (by simp; omega)]),
      ih (by simp [emitted]; omega), ← emitted_append]
    rfl

/-- What is known after the label has been bound. -/
theorem placed_bound {s : JitMemory} {p d} {l : Nat} (hl : l < s.labels.length) (bs : List Monoasm.Byte) (hb : bs.length = d.size) :
    PlacedAll p [(d, l)] s (emitted (boundAt s p d.align l) p bs) where
  cursor q := by
    by_cases h : q = p
    · subst h; simp [cursor, emitted, boundAt, skipped, endOf, hb]
    · simp [cursor, emitted, boundAt, skipped, h]
  contents q := by by_cases h : q = p <;> simp [emitted, boundAt, skipped, h]
  len := by simp [emitted, boundAt]
  loc l' := by
    show (JitMemory.locOf { s with labels := s.labels.modify l fun i => { i with loc := some (p, roundUp (cursor s p) d.align) } } l').isSome ↔ _
    rw [locOf_modify]
    by_cases h : l = l'
    · subst h; simp [hl]
    · have : ¬ l' = l := fun e => h e.symm
      simp only [h, if_false, JitMemory.locOf, List.mem_singleton, Prod.mk.injEq, this, and_false, exists_false, or_false]
  more l' t ht := by
    show t ∈ targets { s with labels := s.labels.modify l fun i => { i with loc := some (p, roundUp (cursor s p) d.align) } } l'
    rw [targets_modify _ _ _ _ hl]
    by_cases h : l' = l
    · subst h; simpa [targets, hl] using ht
    · simpa [h] using ht
  live l' t ht := by
    have ht : t ∈ targets { s with labels := s.labels.modify l fun i => { i with loc := some (p, roundUp (cursor s p) d.align) } } l' := ht
    rw [targets_modify _ _ _ _ hl] at ht
    by_cases h : l' = l
    · subst h; left; simpa [targets, hl] using ht
    · left; simpa [h] using ht

theorem placed_slot {s : JitMemory} {p x} {l : Nat} (hl : l < s.labels.length) (hx : x < s.labels.length)
    (hfit : roundUp (cursor s p) 8 + 8 ≤ PAGE_SIZE) (bs : List Monoasm.Byte) (hb : bs.length = 8) :
    PlacedAll p [(.absAddress x, l)] s (emitted { boundAt s p 8 l with labels := (boundAt s p 8 l).labels.modify x fun i => { i with target := i.target ++ [.abs p ((boundAt s p 8 l).pages p).counter] } } p bs) := by
  have h0 := placed_bound (d := .absAddress x) (p := p) hl bs hb
  have hx' : x < (boundAt s p 8 l).labels.length := by simpa [boundAt] using hx
  have hpc : ((boundAt s p 8 l).pages p).counter = roundUp (cursor s p) 8 := by simp [boundAt, skipped]
  refine ⟨h0.cursor, h0.contents, ?_, ?_, ?_, ?_⟩
  · simp [emitted, boundAt]
  · intro l'
    rw [← h0.loc]
    show (JitMemory.locOf { boundAt s p 8 l with labels := (boundAt s p 8 l).labels.modify x fun i => { i with target := i.target ++ [.abs p ((boundAt s p 8 l).pages p).counter] } } l').isSome
      ↔ (JitMemory.locOf (boundAt s p 8 l) l').isSome
    rw [locOf_modify]
    simp only [JitMemory.locOf]
    cases (boundAt s p 8 l).labels[l']? with
    | none => exact Iff.rfl
    | some i => by_cases h : x = l' <;> simp [h]
  · intro l' t ht
    have this : t ∈ targets (boundAt s p 8 l) l' := h0.more l' t ht
    show t ∈ targets { boundAt s p 8 l with labels := (boundAt s p 8 l).labels.modify x fun i => { i with target := i.target ++ [.abs p ((boundAt s p 8 l).pages p).counter] } } l'
    rw [targets_modify _ _ _ _ hx']
    by_cases h : l' = x
    · subst h
      simp only [targets, List.getElem?_eq_getElem hx'] at this
      simp [this]
    · simpa [h] using this
  · intro l' t ht
    have ht : t ∈ targets { boundAt s p 8 l with labels := (boundAt s p 8 l).labels.modify x fun i => { i with target := i.target ++ [.abs p ((boundAt s p 8 l).pages p).counter] } } l' := ht
    rw [targets_modify _ _ _ _ hx'] at ht
    by_cases h : l' = x
    · subst h
      simp only [if_true, List.mem_append, List.mem_singleton] at ht
      rcases ht with ht | rfl
      · refine h0.live _ t ?_
        show t ∈ targets (boundAt s p 8 l) l'
        simp only [targets, List.getElem?_eq_getElem hx']
        exact ht
      · right
        simp only [Live, TargetType.pos, TargetType.size, hpc]
        exact hfit
    · rw [if_neg h] at ht
      exact h0.live _ t ht

/-- When an object can be placed. -/
def Placeable (s : JitMemory) (d : DataType) (l : DestLabel) : Prop :=
  l < s.labels.length ∧ ∀ x, d = .absAddress x → x < s.labels.length

theorem resolveOne_iff {s : JitMemory} {p d l} (hp : p < 3) (hc : cursor s p ≤ PAGE_SIZE) :
    (∃ s', resolveOne p d l s = .ok () s') ↔ roundUp (cursor s p) d.align + d.size ≤ PAGE_SIZE ∧ Placeable s d l := by
  have hpc : ∀ a l, ((boundAt s p a l).pages p).counter = roundUp (cursor s p) a := by intro a l; simp [boundAt, skipped]
  have hle : ∀ k, k ≤ 28 → roundUp (cursor s p) (2 ^ k) ≤ PAGE_SIZE := by
    intro k hk
    rw [← alignUp_roundUp (by omega) hc]
    exact alignUp_le_page _ k hk hc
  by_cases hl : l < s.labels.length
  · cases d with
    | u64 v =>
      simp only [resolveOne, align16_eq, bind_aligned (k := 4) (by decide) hp hc, if_pos hl]
      constructor
      · rintro ⟨s', h⟩
        have := (emitq_ok h).1
        rw [hpc] at this
        exact ⟨this, hl, by simp⟩
      · rintro ⟨h, -⟩
        exact ⟨_, emitq_run _ _ _ (by rw [hpc]; exact h)⟩
    | u32 v =>
      simp only [resolveOne, align4_eq, bind_aligned (k := 2) (by decide) hp hc, if_pos hl, emitl_run]
      constructor
      · rintro ⟨s', h⟩
        have := (emitRes_ok h).1
        rw [hpc] at this
        exact ⟨this, hl, by simp⟩
      · rintro ⟨h, -⟩
        exact ⟨_, by rw [emitRes, if_pos (by rw [hpc]; exact h)]⟩
    | bytes n =>
      simp only [resolveOne, align16_eq, bind_aligned (k := 4) (by decide) hp hc, if_pos hl]
      constructor
      · rintro ⟨s', h⟩
        have := (emitZeros_ok h (by rw [hpc]; exact hle 4 (by decide))).1
        rw [hpc] at this
        exact ⟨this, hl, by simp⟩
      · rintro ⟨h, -⟩
        exact ⟨_, emitZeros_run (by rw [hpc]; exact h)⟩
    | align8 =>
      have := bind_aligned (k := 3) (p := p) (l := l) (s := s) (f := fun _ => pure ()) (by decide) hp hc
      simp only [bind_pure_unit, if_pos hl] at this
      simp only [resolveOne, align8_eq, this]
      exact ⟨fun _ => ⟨hle 3 (by decide), hl, by simp⟩, fun _ => ⟨_, rfl⟩⟩
    | absAddress x =>
      simp only [resolveOne, align8_eq, bind_aligned (k := 3) (by decide) hp hc, if_pos hl]
      have hlen : (boundAt s p (2 ^ 3) l).labels.length = s.labels.length := by simp [boundAt]
      by_cases hx : (show Nat from x) < s.labels.length
      · rw [ok_bind (a := ()) (by rw [save_absolute_reloc_run, if_pos (by rw [hlen]; exact hx)])]
        constructor
        · rintro ⟨s', h⟩
          have := (emitq_ok h).1
          simp only [hpc] at this
          exact ⟨this, hl, by rintro y ⟨⟩; exact hx⟩
        · rintro ⟨h, -⟩
          exact ⟨_, emitq_run _ _ _ (by simp only [hpc]; exact h)⟩
      · rw [panic_bind (by rw [save_absolute_reloc_run, if_neg (by rw [hlen]; exact hx)])]
        constructor
        · rintro ⟨s', h⟩; cases h
        · rintro ⟨-, -, h⟩; exact absurd (h x rfl) hx
  · constructor
    · rintro ⟨s', h⟩
      cases d <;> simp only [resolveOne, align4_eq, align8_eq, align16_eq] at h
      case align8 =>
        have := bind_aligned (k := 3) (p := p) (l := l) (s := s) (f := fun _ => pure ()) (by decide) hp hc
        simp only [bind_pure_unit, if_neg hl] at this
        rw [this] at h; cases h
      all_goals
        rw [bind_aligned (by decide) hp hc, if_neg hl] at h
        cases h
    · rintro ⟨-, h, -⟩; exact absurd h hl

theorem resolveOne_placed {s s' : JitMemory} {p d l} (hp : p < 3) (hc : cursor s p ≤ PAGE_SIZE) (h : resolveOne p d l s = .ok () s') :
    PlacedAll p [(d, l)] s s' := by
  obtain ⟨hfit, hl, hx⟩ := (resolveOne_iff hp hc).1 ⟨s', h⟩
  have hpc : ∀ a l, ((boundAt s p a l).pages p).counter = roundUp (cursor s p) a := by intro a l; simp [boundAt, skipped]
  have hle : ∀ k, k ≤ 28 → roundUp (cursor s p) (2 ^ k) ≤ PAGE_SIZE := by
    intro k hk
    rw [← alignUp_roundUp (by omega) hc]
    exact alignUp_le_page _ k hk hc
  have hl : (show Nat from l) < s.labels.length := hl
  cases d with
  | u64 v =>
    simp only [resolveOne, align16_eq, bind_aligned (k := 4) (by decide) hp hc, if_pos hl] at h
    obtain ⟨-, rfl⟩ := emitq_ok h
    exact placed_bound (d := .u64 v) hl _ rfl
  | u32 v =>
    simp only [resolveOne, align4_eq, bind_aligned (k := 2) (by decide) hp hc, if_pos hl, emitl_run] at h
    obtain ⟨-, rfl⟩ := emitRes_ok h
    exact placed_bound (d := .u32 v) hl _ rfl
  | bytes n =>
    simp only [resolveOne, align16_eq, bind_aligned (k := 4) (by decide) hp hc, if_pos hl] at h
    obtain ⟨-, rfl⟩ := emitZeros_ok h (by rw [hpc]; exact hle 4 (by decide))
    exact placed_bound (d := .bytes n) hl _ (by simp [DataType.size])
  | align8 =>
    have := bind_aligned (k := 3) (p := p) (l := l) (s := s) (f := fun _ => pure ()) (by decide) hp hc
    simp only [bind_pure_unit, if_pos hl] at this
    simp only [resolveOne, align8_eq, this] at h
    cases h
    rw [← emitted_nil (boundAt s p (2 ^ 3) l) p]
    exact placed_bound (d := .align8) hl [] rfl
  | absAddress x =>
    simp only [resolveOne, align8_eq, bind_aligned (k := 3) (by decide) hp hc, if_pos hl] at h
    have hlen : (boundAt s p (2 ^ 3) l).labels.length = s.labels.length := by simp [boundAt]
    rw [ok_bind (a := ()) (by rw [save_absolute_reloc_run, if_pos (by rw [hlen]; exact hx x rfl)])] at h
    obtain ⟨-, rfl⟩ := emitq_ok h
    exact placed_slot hl (hx x rfl) hfit (le64 0) rfl

theorem resolveList_placed {s s' : JitMemory} {p xs} (hp : p < 3) (hi : Inv base s) (h : resolveList p xs s = .ok () s') :
    PlacedAll p xs s s' ∧ Inv base s' := by
  induction xs generalizing s with
  | nil => cases h; exact ⟨.refl p _, hi⟩
  | cons x xs ih =>
    simp only [resolveList] at h
    obtain ⟨_, s1, h1, h2⟩ := bind_ok h
    have hs := (safe_resolveOne (base := base) (ro := False) (ps := fun _ => True) x.1 x.2 hp trivial s hi trivial).1
    rw [h1] at hs
    obtain ⟨h3, h4⟩ := ih hs.inv h2
    exact ⟨(resolveOne_placed hp (hi.counter p) h1).trans h3, h4⟩

theorem resolveList_iff {s : JitMemory} {p xs} (hp : p < 3) (hi : Inv base s) :
    (∃ s', resolveList p xs s = .ok () s') ↔ endOf (cursor s p) xs ≤ PAGE_SIZE ∧ ∀ d l, (d, l) ∈ xs → Placeable s d l := by
  induction xs generalizing s with
  | nil => exact ⟨fun _ => ⟨hi.counter p, by simp⟩, fun _ => ⟨s, rfl⟩⟩
  | cons x xs ih =>
    obtain ⟨d, l⟩ := x
    have step : ∀ s1, resolveOne p d l s = .ok () s1 → Inv base s1 ∧ cursor s1 p = roundUp (cursor s p) d.align + d.size
        ∧ ∀ d' l', Placeable s1 d' l' ↔ Placeable s d' l' := by
      intro s1 h1
      have hs := (safe_resolveOne (base := base) (ro := False) (ps := fun _ => True) d l hp trivial s hi trivial).1
      rw [h1] at hs
      have k := resolveOne_placed hp (hi.counter p) h1
      refine ⟨hs.inv, by rw [k.cursor, if_pos rfl]; rfl, fun d' l' => ?_⟩
      simp only [Placeable, k.len]
    simp only [resolveList, endOf, List.mem_cons]
    constructor
    · rintro ⟨s', h⟩
      obtain ⟨_, s1, h1, h2⟩ := bind_ok h
      obtain ⟨k1, k2, k3⟩ := step s1 h1
      obtain ⟨h3, h4⟩ := (ih k1).1 ⟨s', h2⟩
      refine ⟨by rw [← k2]; exact h3, ?_⟩
      rintro d' l' (h | h)
      · cases h
        exact ((resolveOne_iff hp (hi.counter p)).1 ⟨s1, h1⟩).2
      · exact (k3 d' l').1 (h4 d' l' h)
    · rintro ⟨h1, h2⟩
      obtain ⟨s1, h3⟩ := (resolveOne_iff (d := d) (l := l) hp (hi.counter p)).2
        ⟨Nat.le_trans (le_endOf _ _) h1, h2 d l (.inl rfl)⟩
      obtain ⟨k1, k2, k3⟩ := step s1 h3
      obtain ⟨s', h4⟩ := (ih k1).2 ⟨by rw [k2]; exact h1, fun d' l' h => (k3 d' l').2 (h2 d' l' (.inr h))⟩
      exact ⟨s', by rw [ok_bind h3]; exact h4⟩

/-- State with the list of constants (of data objects) of a page taken. -/
def tookConstants (s : JitMemory) (p : Page) : JitMemory := s.updPage p fun pg => { pg with constants := [] }
def tookData (s : JitMemory) (p : Page) : JitMemory := s.updPage p fun pg => { pg with data := [] }

theorem resolveConstantsOf_eq (p s) : resolveConstantsOf p s = resolveList p (s.pages p).constants (tookConstants s p) := rfl
theorem resolveDataOf_eq (p s) : resolveDataOf p s = resolveList DATA_PAGE (s.pages p).data (tookData s p) := rfl

theorem took_constants {s p} (hi : Inv base s) : Inv base (tookConstants s p) := hi.updPage fun _ => ⟨rfl, rfl⟩
theorem took_data {s p} (hi : Inv base s) : Inv base (tookData s p) := hi.updPage fun _ => ⟨rfl, rfl⟩

theorem PlacedAll.congr {p xs} {s s1 s' : JitMemory} (h : PlacedAll p xs s1 s') (hc : ∀ q, Spec.cursor s1 q = Spec.cursor s q)
    (hp : ∀ q, (s1.pages q).contents = (s.pages q).contents) (hl : s1.labels = s.labels) : PlacedAll p xs s s' where
  cursor q := by rw [h.cursor, hc, hc]
  contents q := (h.contents q).trans (hp q)
  len := by rw [h.len, hl]
  loc l := by rw [h.loc]; simp only [JitMemory.locOf, hl]
  more l t ht := h.more l t (by simpa only [targets, hl] using ht)
  live l t ht := by simpa only [targets, hl] using h.live l t ht

theorem cursor_took (s p q) : cursor (tookConstants s p) q = cursor s q := by
  by_cases h : q = p <;> simp [tookConstants, updPage, cursor, h]
theorem cursor_tookData (s p q) : cursor (tookData s p) q = cursor s q := by
  by_cases h : q = p <;> simp [tookData, updPage, cursor, h]

theorem constantsOf_iff {s : JitMemory} {p} (hp : p < 3) (hi : Inv base s) :
    (∃ s', resolveConstantsOf p s = .ok () s')
      ↔ endOf (cursor s p) (s.pages p).constants ≤ PAGE_SIZE ∧ ∀ d l, (d, l) ∈ (s.pages p).constants → Placeable s d l := by
  simp only [resolveConstantsOf_eq, resolveList_iff hp (took_constants hi), cursor_took]
  exact Iff.rfl

theorem dataOf_iff {s : JitMemory} {p} (hi : Inv base s) :
    (∃ s', resolveDataOf p s = .ok () s')
      ↔ endOf (cursor s 2) (s.pages p).data ≤ PAGE_SIZE ∧ ∀ d l, (d, l) ∈ (s.pages p).data → Placeable s d l := by
  simp only [resolveDataOf_eq, resolveList_iff (p := DATA_PAGE) (by decide) (took_data hi), cursor_tookData]
  exact Iff.rfl

theorem constantsOf_placed {s s' : JitMemory} {p} (hp : p < 3) (hi : Inv base s) (h : resolveConstantsOf p s = .ok () s') :
    PlacedAll p (s.pages p).constants s s' := by
  rw [resolveConstantsOf_eq] at h
  refine (resolveList_placed hp (took_constants hi) h).1.congr (cursor_took s p) (fun q => ?_) rfl
  by_cases h : q = p <;> simp [tookConstants, updPage, h]

theorem dataOf_placed {s s' : JitMemory} {p} (hi : Inv base s) (h : resolveDataOf p s = .ok () s') :
    PlacedAll 2 (s.pages p).data s s' := by
  rw [resolveDataOf_eq] at h
  refine (resolveList_placed (p := DATA_PAGE) (by decide) (took_data hi) h).1.congr (cursor_tookData s p) (fun q => ?_) rfl
  by_cases h : q = p <;> simp [tookData, updPage, h]

/-! ### Relocation -/

theorem fillTarget_total {s : JitMemory} {src : Nat} (hi : Inv base s) (hsrc : base ≤ src ∧ src ≤ base + 3 * PAGE_SIZE)
    {t : TargetType} (ht : t.page < 3) (hl : Live t) : ∃ s', fillTarget src t s = .ok () s' ∧ Inv base s' := by
  have hs := (safe_fillTarget (base := base) (ro := False) (ps := fun _ => True) src (fun _ => trivial) hsrc t
    ⟨ht, by simp only [Live] at hl; omega⟩ s hi trivial).1
  suffices h : ∃ s', fillTarget src t s = .ok () s' by
    obtain ⟨s', h⟩ := h
    rw [h] at hs
    exact ⟨s', h, hs.inv⟩
  cases t with
  | abs p pos =>
    simp only [fillTarget, write64_run]
    rw [writes_run, if_pos (.inl hl)]
    exact ⟨_, rfl⟩
  | rel p off pos =>
    simp only [fillTarget]
    rw [ok_bind (s1 := s) (by rfl)]
    have hd := page_mul (show p < 3 from ht)
    have hp : pos + 4 ≤ PAGE_SIZE := hl
    have ho : off.toNat < 256 := off.isLt
    have hc := hi.contents p
    simp only [i32TryFromInt]
    have hfit : -2147483648 ≤ (src : Int) - ((s.pages p).contents + pos + off.toNat : Nat)
        ∧ (src : Int) - ((s.pages p).contents + pos + off.toNat : Nat) ≤ 2147483647 := by
      rw [PAGE_SIZE_eq] at *
      omega
    rw [if_pos hfit]
    simp only [write32_run]
    rw [writes_run, if_pos (.inl hp)]
    exact ⟨_, rfl⟩

theorem fillTargets_total {s : JitMemory} {src : Nat} (hi : Inv base s) (hsrc : base ≤ src ∧ src ≤ base + 3 * PAGE_SIZE)
    {ts : List TargetType} (ht : ∀ t ∈ ts, t.page < 3 ∧ Live t) : ∃ s', fillTargets src ts s = .ok () s' ∧ Inv base s' := by
  induction ts generalizing s with
  | nil => exact ⟨s, rfl, hi⟩
  | cons t ts ih =>
    obtain ⟨s1, h1, h2⟩ := fillTarget_total hi hsrc (ht t (by simp)).1 (ht t (by simp)).2
    obtain ⟨s2, h3, h4⟩ := ih h2 fun t' h' => ht t' (by simp [h'])
    exact ⟨s2, by simp only [fillTargets]; rw [ok_bind h1]; exact h3, h4⟩

theorem fillLabel_total {s : JitMemory} (hi : Inv base s) {i : LabelInfo} (hk : InfoOk i)
    (ht : i.loc ≠ none → ∀ t ∈ i.target, Live t) : ∃ r s', fillLabel i s = .ok r s' ∧ Inv base s' := by
  simp only [fillLabel]
  cases e : i.loc with
  | none => exact ⟨i, s, rfl, hi⟩
  | some pc =>
    obtain ⟨p, c⟩ := pc
    simp only
    rw [ok_bind (s1 := s) (by rfl)]
    have h1 := hk.1 p c e
    have h2 := hi.contents p
    have hd := page_mul h1.1
    obtain ⟨s1, h3, h4⟩ := fillTargets_total (src := (s.pages p).contents + c) hi (by omega)
      (ts := i.target) fun t h => ⟨(hk.2 t h).1, ht (by simp [e]) t h⟩
    exact ⟨_, s1, by rw [ok_bind h3]; rfl, h4⟩

theorem fillLabels_total {s : JitMemory} (hi : Inv base s) {is : List LabelInfo} (hk : ∀ i ∈ is, InfoOk i)
    (ht : ∀ i ∈ is, i.loc ≠ none → ∀ t ∈ i.target, Live t) : ∃ r s', fillLabels is s = .ok r s' := by
  induction is generalizing s with
  | nil => exact ⟨_, s, rfl⟩
  | cons i is ih =>
    obtain ⟨r, s1, h1, h2⟩ := fillLabel_total hi (hk i (by simp)) (ht i (by simp))
    obtain ⟨r2, s2, h3⟩ := ih h2 (fun j hj => hk j (by simp [hj])) (fun j hj => ht j (by simp [hj]))
    exact ⟨_, s2, by simp only [fillLabels]; rw [ok_bind h1, ok_bind h3]; rfl⟩

theorem fill_iff {s : JitMemory} (hi : Inv base s) :
    (∃ s', fill_relocs s = .ok () s') ↔ ∀ l t, t ∈ targets s l → (s.locOf l).isSome → Live t := by
  constructor
  · rintro ⟨s', h⟩ l t ht hl
    refine ((fill_relocs_run h).1 ((s.locOf l).elim 0 fun pc => contentsOf s pc.1 + pc.2, t) ?_).1
    simp only [jobs, List.mem_flatMap]
    simp only [targets] at ht
    simp only [JitMemory.locOf] at hl ⊢
    cases e : s.labels[l]? with
    | none => simp [e] at hl
    | some i =>
      rw [e] at ht hl
      refine ⟨i, List.mem_of_getElem? e, ?_⟩
      simp only [Option.bind_some] at hl ⊢
      obtain ⟨⟨p, c⟩, e2⟩ := Option.isSome_iff_exists.1 hl
      simp only [jobsOf, e2, List.mem_map, Option.elim_some]
      exact ⟨t, ht, rfl⟩
  · intro h
    simp only [fill_relocs]
    rw [ok_bind (s1 := s) (by rfl), ok_bind (a := ()) (s1 := { s with labels := [] }) (by rfl)]
    obtain ⟨r, s1, h1⟩ := fillLabels_total (s := { s with labels := [] }) (base := base) (is := s.labels)
      (hi.setLabels (by simp)) (infoOk_of_inv hi) (by
        intro i hm hl t ht
        obtain ⟨l, e⟩ := List.mem_iff_getElem?.1 hm
        refine h l t (by simpa only [targets, e] using ht) ?_
        simp only [JitMemory.locOf, e, Option.bind_some]
        exact Option.isSome_iff_ne_none.2 hl)
    exact ⟨_, by rw [ok_bind h1]; rfl⟩

theorem locOf_pos {s : JitMemory} {l : Nat} : (s.locOf l).isSome ↔ ∃ pos, get_label_pos l s = .ok pos s := by
  by_cases hl : l < s.labels.length
  · rw [get_label_pos_eq s l hl]
    cases s.locOf l <;> simp
  · have : s.labels[l]? = none := List.getElem?_eq_none (by omega)
    constructor
    · intro h; simp [JitMemory.locOf, this] at h
    · rintro ⟨pos, h⟩
      simp only [get_label_pos] at h
      rw [panic_bind (labelInfo_none (by omega))] at h
      cases h

theorem page_lt_two {p : Nat} (h : p < 2) : p = 0 ∨ p = 1 := by omega

/-- The objects can be placed exactly when there is room and the labels exist. -/
theorem stages_iff {s sa : JitMemory} (ma : Sim s sa) (hia : Inv base sa) :
    (∃ s1 s2 s3 s4, resolveConstantsOf 0 sa = .ok () s1 ∧ resolveConstantsOf 1 s1 = .ok () s2
      ∧ resolveDataOf 0 s2 = .ok () s3 ∧ resolveDataOf 1 s3 = .ok () s4) ↔ HasRoom s ∧ NamesKnown s := by
  have names : ∀ {s' : JitMemory}, s'.labels.length = s.labels.length → ∀ d l, Placeable s' d l ↔ Placeable s d l := by
    intro s' h d l; simp only [Placeable, h]
  constructor
  · rintro ⟨s1, s2, s3, s4, h1, h2, h3, h4⟩
    obtain ⟨d1, l1⟩ := drain_constants hia (by decide) h1
    obtain ⟨d2, l2⟩ := drain_constants d1.inv (by decide) h2
    obtain ⟨d3, l3⟩ := drain_data d2.inv h3
    have p1 := constantsOf_placed (by decide) hia h1
    have p2 := constantsOf_placed (by decide) d1.inv h2
    have p3 := dataOf_placed d2.inv h3
    obtain ⟨a1, b1⟩ := (constantsOf_iff (by decide) hia).1 ⟨_, h1⟩
    obtain ⟨a2, b2⟩ := (constantsOf_iff (by decide) d1.inv).1 ⟨_, h2⟩
    obtain ⟨a3, b3⟩ := (dataOf_iff d2.inv).1 ⟨_, h3⟩
    obtain ⟨a4, b4⟩ := (dataOf_iff d3.inv).1 ⟨_, h4⟩
    have c1 : (s1.pages 1).constants = (s.pages 1).constants := by rw [(l1 1).1]; exact ma.constants 1
    have c2 : (s2.pages 0).data = (s.pages 0).data := by rw [(l2 0).2, (l1 0).2, ma.data]
    have c3 : (s3.pages 1).data = (s.pages 1).data := by
      rw [(l3 1).1]; exact ((l2 1).2.trans (l1 1).2).trans (ma.data 1)
    have n1 : s1.labels.length = s.labels.length := by rw [p1.len, ma.labels]
    have n2 : s2.labels.length = s.labels.length := by rw [p2.len, n1]
    have n3 : s3.labels.length = s.labels.length := by rw [p3.len, n2]
    rw [ma.cursor, ma.constants] at a1
    rw [c1, p1.cursor, if_neg (by decide), ma.cursor] at a2
    rw [c3, p3.cursor, if_pos rfl, p2.cursor, if_neg (by decide), p1.cursor, if_neg (by decide), ma.cursor, c2,
      ← endOf_append] at a4
    refine ⟨⟨a1, a2, a4⟩, ?_⟩
    rintro d l ⟨p, hp, hw⟩
    have := page_lt_two hp
    rw [ma.constants] at b1
    rw [c1] at b2
    rw [c2] at b3
    rw [c3] at b4
    show Placeable s d l
    rcases this with rfl | rfl <;> rcases hw with hw | hw
    · exact (names (by rw [ma.labels]) d l).1 (b1 d l hw)
    · exact (names n2 d l).1 (b3 d l hw)
    · exact (names n1 d l).1 (b2 d l hw)
    · exact (names n3 d l).1 (b4 d l hw)
  · rintro ⟨hroom, hn⟩
    obtain ⟨s1, h1⟩ := (constantsOf_iff (p := 0) (by decide) hia).2 ⟨by rw [ma.cursor, ma.constants]; exact hroom.page0, fun d l h =>
      (names (by rw [ma.labels]) d l).2 (hn d l ⟨0, by decide, .inl (by rwa [ma.constants] at h)⟩)⟩
    obtain ⟨d1, l1⟩ := drain_constants hia (by decide) h1
    have p1 := constantsOf_placed (by decide) hia h1
    have n1 : s1.labels.length = s.labels.length := by rw [p1.len, ma.labels]
    have c1 : (s1.pages 1).constants = (s.pages 1).constants := by rw [(l1 1).1]; exact ma.constants 1
    obtain ⟨s2, h2⟩ := (constantsOf_iff (p := 1) (by decide) d1.inv).2 ⟨by
        rw [c1, p1.cursor, if_neg (by decide), ma.cursor]; exact hroom.page1, fun d l h =>
      (names n1 d l).2 (hn d l ⟨1, by decide, .inl (by rwa [c1] at h)⟩)⟩
    obtain ⟨d2, l2⟩ := drain_constants d1.inv (by decide) h2
    have p2 := constantsOf_placed (by decide) d1.inv h2
    have n2 : s2.labels.length = s.labels.length := by rw [p2.len, n1]
    have c2 : (s2.pages 0).data = (s.pages 0).data := by rw [(l2 0).2, (l1 0).2, ma.data]
    have k2 : cursor s2 2 = cursor s 2 := by
      rw [p2.cursor, if_neg (by decide), p1.cursor, if_neg (by decide), ma.cursor]
    have hdata := hroom.data
    rw [endOf_append] at hdata
    obtain ⟨s3, h3⟩ := (dataOf_iff (p := 0) d2.inv).2 ⟨by
        rw [c2, k2]; exact Nat.le_trans (le_endOf _ _) hdata, fun d l h =>
      (names n2 d l).2 (hn d l ⟨0, by decide, .inr (by rwa [c2] at h)⟩)⟩
    obtain ⟨d3, l3⟩ := drain_data d2.inv h3
    have p3 := dataOf_placed d2.inv h3
    have n3 : s3.labels.length = s.labels.length := by rw [p3.len, n2]
    have c3 : (s3.pages 1).data = (s.pages 1).data := by
      rw [(l3 1).1]; exact ((l2 1).2.trans (l1 1).2).trans (ma.data 1)
    obtain ⟨s4, h4⟩ := (dataOf_iff (p := 1) d3.inv).2 ⟨by
        rw [c3, p3.cursor, if_pos rfl, k2, c2]; exact hdata, fun d l h =>
      (names n3 d l).2 (hn d l ⟨1, by decide, .inr (by rwa [c3] at h)⟩)⟩
    exact ⟨s1, s2, s3, s4, h1, h2, h3, h4⟩

/-- `finalize` succeeds exactly when there is room, the labels exist and the fields are inside. -/
theorem finalize_iff {s : JitMemory} (hi : Inv base s) :
    (∃ s', finalize s = .ok () s') ↔ HasRoom s ∧ NamesKnown s ∧ FieldsFit s := by
  obtain ⟨sa, ha⟩ : ∃ sa, forPages openBlock s = .ok () sa := ⟨_, rfl⟩
  have ma : Sim s sa := sim_forPages (f := openBlock) (fun _ => ⟨rfl, rfl, rfl, rfl⟩) ha
  have hia := ma.inv hi
  have end2 : ∀ {s4 : JitMemory}, Inv base s4 → ((∃ s', (forPages closeBlock >>= fun _ => fill_relocs >>= fun _ => forPages topBlock) s4 = .ok () s')
      ↔ ∀ l t, t ∈ targets s4 l → (s4.locOf l).isSome → Live t) := by
    intro s4 h4
    obtain ⟨sc, hc⟩ : ∃ sc, forPages closeBlock s4 = .ok () sc := ⟨_, rfl⟩
    have mc : Sim s4 sc := sim_forPages (f := closeBlock) (fun _ => ⟨rfl, rfl, rfl, rfl⟩) hc
    have := fill_iff (mc.inv h4)
    simp only [mc.targets, mc.locOf] at this
    rw [← this]
    rw [show (forPages closeBlock >>= fun _ => fill_relocs >>= fun _ => forPages topBlock) s4
      = (fill_relocs >>= fun _ => forPages topBlock) sc from ok_bind hc]
    constructor
    · rintro ⟨s', h⟩
      obtain ⟨_, sd, h1, h2⟩ := bind_ok h
      exact ⟨sd, h1⟩
    · rintro ⟨sd, h⟩
      rw [ok_bind h]
      exact ⟨_, rfl⟩
  have efin : finalize s = (resolveConstantsOf 0 >>= fun _ => resolveConstantsOf 1 >>= fun _ => resolveDataOf 0 >>= fun _ =>
      resolveDataOf 1 >>= fun _ => (forPages closeBlock >>= fun _ => fill_relocs >>= fun _ => forPages topBlock)) sa := by
    simp only [finalize, resolve_constants, resolve_data]
    rw [ok_bind ha]
    simp only [bind_assoc]
  -- what each stage leaves behind
  have stage : ∀ s1 s2 s3 s4, resolveConstantsOf 0 sa = .ok () s1 → resolveConstantsOf 1 s1 = .ok () s2 →
      resolveDataOf 0 s2 = .ok () s3 → resolveDataOf 1 s3 = .ok () s4 →
      Inv base s4 ∧ ((∀ l t, t ∈ targets s4 l → (s4.locOf l).isSome → Live t) ↔ FieldsFit s) := by
    intro s1 s2 s3 s4 h1 h2 h3 h4
    obtain ⟨d1, l1⟩ := drain_constants hia (by decide) h1
    obtain ⟨d2, l2⟩ := drain_constants d1.inv (by decide) h2
    obtain ⟨d3, l3⟩ := drain_data d2.inv h3
    obtain ⟨d4, l4⟩ := drain_data d3.inv h4
    have p1 := constantsOf_placed (by decide) hia h1
    have p2 := constantsOf_placed (by decide) d1.inv h2
    have p3 := dataOf_placed d2.inv h3
    have p4 := dataOf_placed d3.inv h4
    have c0 : (sa.pages 0).constants = (s.pages 0).constants := ma.constants 0
    have c1 : (s1.pages 1).constants = (s.pages 1).constants := by rw [(l1 1).1]; exact ma.constants 1
    have c2 : (s2.pages 0).data = (s.pages 0).data := by rw [(l2 0).2, (l1 0).2, ma.data]
    have c3 : (s3.pages 1).data = (s.pages 1).data := by
      rw [(l3 1).1]; exact ((l2 1).2.trans (l1 1).2).trans (ma.data 1)
    rw [c0] at p1
    rw [c1] at p2
    rw [c2] at p3
    rw [c3] at p4
    refine ⟨d4.inv, ?_⟩
    have hloc : ∀ l, (s4.locOf l).isSome ↔ (∃ pos, get_label_pos l s = .ok pos s) ∨ ∃ d, Queued s d l := by
      intro l
      rw [p4.loc, p3.loc, p2.loc, p1.loc, ma.locOf, ← locOf_pos]
      have e : (∃ d, Queued s d l) ↔ (∃ d, (d, l) ∈ (s.pages 0).constants) ∨ (∃ d, (d, l) ∈ (s.pages 1).constants)
          ∨ (∃ d, (d, l) ∈ (s.pages 0).data) ∨ ∃ d, (d, l) ∈ (s.pages 1).data := by
        constructor
        · rintro ⟨d, p, hp, h⟩
          have := page_lt_two hp
          rcases this with rfl | rfl <;> rcases h with h | h
          · exact .inl ⟨d, h⟩
          · exact .inr (.inr (.inl ⟨d, h⟩))
          · exact .inr (.inl ⟨d, h⟩)
          · exact .inr (.inr (.inr ⟨d, h⟩))
        · rintro (⟨d, h⟩ | ⟨d, h⟩ | ⟨d, h⟩ | ⟨d, h⟩)
          · exact ⟨d, 0, by decide, .inl h⟩
          · exact ⟨d, 1, by decide, .inl h⟩
          · exact ⟨d, 0, by decide, .inr h⟩
          · exact ⟨d, 1, by decide, .inr h⟩
      rw [e]
      simp only [or_assoc]
    simp only [hloc]
    constructor
    · intro h l t ht
      exact h l t (p4.more l t (p3.more l t (p2.more l t (p1.more l t (by rw [ma.targets]; exact ht)))))
    · intro h l t ht hl
      rcases p4.live l t ht with ht | ht
      · rcases p3.live l t ht with ht | ht
        · rcases p2.live l t ht with ht | ht
          · rcases p1.live l t ht with ht | ht
            · exact h l t (by rw [← ma.targets]; exact ht) hl
            · exact ht
          · exact ht
        · exact ht
      · exact ht
  rw [efin]
  constructor
  · rintro ⟨s', h⟩
    obtain ⟨_, s1, h1, h⟩ := bind_ok h
    obtain ⟨_, s2, h2, h⟩ := bind_ok h
    obtain ⟨_, s3, h3, h⟩ := bind_ok h
    obtain ⟨_, s4, h4, h⟩ := bind_ok h
    obtain ⟨i4, hst⟩ := stage s1 s2 s3 s4 h1 h2 h3 h4
    obtain ⟨r, n⟩ := (stages_iff ma hia).1 ⟨s1, s2, s3, s4, h1, h2, h3, h4⟩
    exact ⟨r, n, hst.1 ((end2 i4).1 ⟨_, h⟩)⟩
  · rintro ⟨hroom, hn, hff⟩
    obtain ⟨s1, s2, s3, s4, h1, h2, h3, h4⟩ := (stages_iff ma hia).2 ⟨hroom, hn⟩
    obtain ⟨i4, hst⟩ := stage s1 s2 s3 s4 h1 h2 h3 h4
    rw [ok_bind h1, ok_bind h2, ok_bind h3, ok_bind h4]
    exact (end2 i4).2 (hst.2 hff)

end Monoasm
