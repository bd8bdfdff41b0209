import Verif.Proofs.History
import Verif.Proofs.Link
/-
  Everything except `finalize`, patching and poking only adds: bytes already emitted and fields
  already recorded stay.
-/

set_option linter.unusedSimpArgs false

namespace Monoasm
open JitMemory Spec

/-! ### Addresses of different pages -/

theorem addr_ne {base : Nat} {s : JitMemory} (h : Inv base s) {p q : Nat} {i j : Nat}
    (hi : i < PAGE_SIZE) (hj : j < PAGE_SIZE) (hne : p ≠ q ∨ i ≠ j) :
    (s.pages p).contents + i ≠ (s.pages q).contents + j := by
  rw [h.contents, h.contents]
  rw [PAGE_SIZE_eq] at *
  omega

/-- Storing in page `p` does not change a position of another page or outside the range. -/
theorem put_other {base : Nat} {s : JitMemory} (h : Inv base s) {p q : Nat} {c j : Nat} {bs : List Byte}
    (hc : c + bs.length ≤ PAGE_SIZE) (hj : j < PAGE_SIZE) (hne : p ≠ q ∨ j < c ∨ c + bs.length ≤ j) :
    putBytes s.mem ((s.pages p).contents + c) bs ((s.pages q).contents + j) = s.mem ((s.pages q).contents + j) := by
  apply putBytes_out
  rw [h.contents, h.contents]
  rw [PAGE_SIZE_eq] at *
  omega

/-! ### Slots -/

/-- The recorded fields lie in the emitted part of their page and do not overlap. (A field whose
    emission panicked may cross the end of its page; it begins after all other fields.) -/
structure Slots (s : JitMemory) : Prop where
  inside : ∀ l t, t ∈ targets s l → Live t → t.pos + t.size ≤ cursor s t.page
  apart : ∀ (l l' i i' : Nat) t t', (targets s l)[i]? = some t → (targets s l')[i']? = some t' →
    (l ≠ l' ∨ i ≠ i') → Live t → Live t' →
    t.page ≠ t'.page ∨ t.pos + t.size ≤ t'.pos ∨ t'.pos + t'.size ≤ t.pos
  low : ∀ l t, t ∈ targets s l → t.pos ≤ cursor s t.page
  aligned : ∀ l t, t ∈ targets s l → t.size = 4 ∨ t.pos % 8 = 0
  dead : ∀ l l' t u, t ∈ targets s l → u ∈ targets s l' → ¬ Live t → Live u → u.page = t.page → u.pos + u.size ≤ t.pos

theorem slots_none {s : JitMemory} (h : ∀ l, targets s l = []) : Slots s := by
  refine ⟨fun l t ht => ?_, fun l l' i i' t t' ht => ?_, fun l t ht => ?_, fun l t ht => ?_, fun l l' t u ht => ?_⟩ <;>
    simp [h] at ht

/-- The recorded fields hold zeros. -/
def Zeroed (s : JitMemory) : Prop :=
  ∀ l t, t ∈ targets s l → Live t → ∀ pos, Covers t t.page pos → byteAt s t.page pos = 0

/-- `s'` is `s` with things added. -/
structure Grow (s s' : JitMemory) : Prop where
  contents : ∀ p, (s'.pages p).contents = (s.pages p).contents
  cursor : ∀ p, cursor s p ≤ cursor s' p
  mem : ∀ p pos, pos < Spec.cursor s p → byteAt s' p pos = byteAt s p pos
  targets : ∀ l, ∃ ts, Spec.targets s' l = Spec.targets s l ++ ts ∧ ∀ t ∈ ts, Spec.cursor s t.page ≤ t.pos
  code_len : ∀ p, (s'.pages p).code_len = (s.pages p).code_len
  code_block_top : ∀ p, (s'.pages p).code_block_top = (s.pages p).code_block_top
  code_block : ∀ p, (s'.pages p).code_block = (s.pages p).code_block
  slots : Slots s → Slots s'
  zeroed : Slots s → Zeroed s → Zeroed s'

theorem Grow.refl (s) : Grow s s :=
  ⟨fun _ => rfl, fun _ => Nat.le_refl _, fun _ _ _ => rfl, fun _ => ⟨[], by simp⟩, fun _ => rfl,
    fun _ => rfl, fun _ => rfl, id, fun _ h => h⟩

theorem Grow.trans {s s' s''} (h : Grow s s') (h' : Grow s' s'') : Grow s s'' where
  contents p := (h'.contents p).trans (h.contents p)
  cursor p := Nat.le_trans (h.cursor p) (h'.cursor p)
  mem p pos hp := (h'.mem p pos (Nat.lt_of_lt_of_le hp (h.cursor p))).trans (h.mem p pos hp)
  targets l := by
    obtain ⟨ts, e, hts⟩ := h.targets l
    obtain ⟨ts', e', hts'⟩ := h'.targets l
    refine ⟨ts ++ ts', by rw [e', e, List.append_assoc], ?_⟩
    intro t ht
    rcases List.mem_append.1 ht with ht | ht
    · exact hts t ht
    · exact Nat.le_trans (h.cursor _) (hts' t ht)
  code_len p := (h'.code_len p).trans (h.code_len p)
  code_block_top p := (h'.code_block_top p).trans (h.code_block_top p)
  code_block p := (h'.code_block p).trans (h.code_block p)
  slots hs := h'.slots (h.slots hs)
  zeroed hs hz := h'.zeroed (h.slots hs) (h.zeroed hs hz)

/-- A settled byte stays settled and unchanged. -/
theorem settled_grow {s s' : JitMemory} {p : Page} {pos : Nat} (h : Settled s p pos) (g : Grow s s') :
    Settled s' p pos ∧ byteAt s' p pos = byteAt s p pos := by
  refine ⟨⟨Nat.lt_of_lt_of_le h.1 (g.cursor p), ?_⟩, g.mem p pos h.1⟩
  intro l t ht hl hc
  obtain ⟨ts, e, hts⟩ := g.targets l
  rw [e] at ht
  rcases List.mem_append.1 ht with ht | ht
  · exact h.2 l t ht hl hc
  · have := hts t ht
    have h1 := h.1
    obtain ⟨e, h2, h3⟩ := hc
    rw [e] at this
    omega

/-- Same labels, cursors not lower, emitted bytes unchanged. -/
theorem grow_of_labels {s s' : JitMemory} (hl : s'.labels = s.labels)
    (contents : ∀ p, (s'.pages p).contents = (s.pages p).contents)
    (cursor : ∀ p, cursor s p ≤ Spec.cursor s' p)
    (mem : ∀ p pos, pos < Spec.cursor s p → byteAt s' p pos = byteAt s p pos)
    (code_len : ∀ p, (s'.pages p).code_len = (s.pages p).code_len)
    (code_block_top : ∀ p, (s'.pages p).code_block_top = (s.pages p).code_block_top)
    (code_block : ∀ p, (s'.pages p).code_block = (s.pages p).code_block) : Grow s s' := by
  have ht : ∀ l, targets s' l = targets s l := fun l => by simp only [targets, hl]
  refine ⟨contents, cursor, mem, fun l => ⟨[], by simp [ht]⟩, code_len, code_block_top, code_block, ?_, ?_⟩
  · intro h
    refine ⟨fun l t h1 h2 => ?_, ?_, ?_, ?_, ?_⟩
    · rw [ht] at h1; exact Nat.le_trans (h.inside l t h1 h2) (cursor _)
    · intro l l' i i' t t' h1 h2
      rw [ht] at h1 h2; exact h.apart l l' i i' t t' h1 h2
    · intro l t h1; rw [ht] at h1; exact Nat.le_trans (h.low l t h1) (cursor _)
    · intro l t h1; rw [ht] at h1; exact h.aligned l t h1
    · intro l l' t u h1 h2; rw [ht] at h1 h2; exact h.dead l l' t u h1 h2
  · intro h hz l t h1 h2 pos hc
    rw [ht] at h1
    have := h.inside l t h1 h2
    rw [mem _ _ (Nat.lt_of_lt_of_le hc.2.2 this)]
    exact hz l t h1 h2 pos hc

/-! ### Computations that only add -/

/-- Every outcome of `m`, panics included, only adds. -/
def Grows (base : Nat) {α} (m : M α) : Prop :=
  ∀ s, Inv base s → Inv base (m s).state ∧ Grow s (m s).state

section
variable {base : Nat} {α β : Type}

theorem Grows.of_safe {m : M α} (hs : Safe base False (fun _ => True) m)
    (h : ∀ s, Inv base s → Grow s (m s).state) : Grows base m :=
  fun s hi => ⟨(hs s hi trivial).1.inv, h s hi⟩

theorem Grows.pure (a : α) : Grows base (Pure.pure a : M α) := fun s hi => ⟨hi, Grow.refl s⟩

theorem Grows.bind {m : M α} {f : α → M β} (hm : Grows base m) (hf : ∀ a, Grows base (f a)) :
    Grows base (m >>= f) := by
  intro s hi
  have h1 := hm s hi
  rw [M.bind_def]
  cases e : m s with
  | ok a s1 =>
    rw [e] at h1
    have h2 := hf a s1 h1.1
    exact ⟨h2.1, h1.2.trans h2.2⟩
  | panic er s1 => rw [e] at h1; exact h1

theorem Grows.read {m : M α} (h : ∀ s, (m s).state = s) : Grows base m := by
  intro s hi; rw [h s]; exact ⟨hi, Grow.refl s⟩

theorem Grows.cur : Grows base JitMemory.cur := .read fun _ => rfl
theorem Grows.get : Grows base M.get := .read fun _ => rfl
theorem Grows.panic (e) : Grows base (M.panic e : M α) := .read fun _ => rfl
theorem Grows.counterOf (p) : Grows base (MemPage.counterOf p) := .read fun _ => rfl
theorem Grows.checkPage (p) : Grows base (checkPage p) := .read fun s => by
  simp only [Monoasm.checkPage]; split <;> rfl

theorem Grows.of_state {m : M α} (h : ∀ s, Inv base s → ∃ m' : M α, m s = m' s ∧ Grows base m') :
    Grows base m := by
  intro s hi
  obtain ⟨m', e, h'⟩ := h s hi
  rw [e]; exact h' s hi

theorem Grows.congr {m m' : M α} (h : ∀ s, m s = m' s) (h' : Grows base m') : Grows base m :=
  .of_state fun s _ => ⟨m', h s, h'⟩

/-- Computations on the current page. -/
theorem Grows.onCur {f : Page → M α} (h : ∀ p, p < 3 → Grows base (f p)) :
    Grows base (JitMemory.cur >>= f) :=
  .of_state fun s hi => ⟨f s.page, cur_bind f s, h _ (Nat.lt_trans hi.page (by decide))⟩

theorem grow_emitted {s : JitMemory} (hi : Inv base s) (p : Page) (bs : List Byte)
    (hle : (s.pages p).counter + bs.length ≤ PAGE_SIZE) : Grow s (emitted s p bs) := by
  refine grow_of_labels (by rfl) ?_ ?_ ?_ ?_ ?_ ?_
  · intro q; simp only [emitted]; split <;> rfl
  · intro q; simp only [emitted, cursor]; split <;> simp
  · intro q pos hpos
    have e : ((emitted s p bs).pages q).contents = (s.pages q).contents := by
      simp only [emitted]; split <;> rfl
    simp only [byteAt, e]
    simp only [emitted]
    refine put_other hi hle (Nat.lt_of_lt_of_le hpos (hi.counter q)) ?_
    by_cases e : p = q
    · subst e; exact .inr (.inl hpos)
    · exact .inl e
  all_goals (intro q; simp only [emitted]; split <;> rfl)

theorem grow_spilled {s : JitMemory} (hi : Inv base s) (p : Page) (bs : List Byte) :
    Grow s (spilled s p bs) := by
  refine grow_of_labels (by rfl) ?_ ?_ ?_ ?_ ?_ ?_
  · intro q; rfl
  · intro q; exact Nat.le_refl _
  · intro q pos hpos
    simp only [byteAt, spilled]
    have := hi.counter p
    refine put_other hi (by simp only [List.length_take]; omega) (Nat.lt_of_lt_of_le hpos (hi.counter q)) ?_
    by_cases e : p = q
    · subst e; exact .inr (.inl hpos)
    · exact .inl e
  all_goals (intro q; rfl)

theorem Grows.emitRes {p} (bs) (hp : p < 3) : Grows base (emitRes p bs) := by
  refine .of_safe (safe_emitRes bs hp trivial) fun s hi => ?_
  simp only [Monoasm.emitRes]
  split
  · rename_i h; exact grow_emitted hi p bs h
  · exact grow_spilled hi p bs

theorem Grows.emitb {p} (v) (hp : p < 3) : Grows base (MemPage.emitb p v) := .congr (emitb_run p v) (.emitRes _ hp)
theorem Grows.emitw {p} (v) (hp : p < 3) : Grows base (MemPage.emitw p v) := .congr (emitw_run p v) (.emitRes _ hp)
theorem Grows.emitl {p} (v) (hp : p < 3) : Grows base (MemPage.emitl p v) := .congr (emitl_run p v) (.emitRes _ hp)
theorem Grows.emitq {p} (v) (hp : p < 3) : Grows base (MemPage.emitq p v) :=
  .bind (.emitl _ hp) fun _ => .emitl _ hp

theorem alignUp_ge {s : JitMemory} (hi : Inv base s) (k p) (hk : k ≤ 28) :
    (s.pages p).counter ≤ MemPage.alignUp (s.pages p).counter (2 ^ k - 1) := by
  refine (alignUp_spec _ k (by omega) ?_).1
  have := hi.counter p
  rw [PAGE_SIZE_eq] at this; omega

theorem grow_skipped {s : JitMemory} (p : Page) (c : Nat) (hc : (s.pages p).counter ≤ c) :
    Grow s (skipped s p c) := by
  refine grow_of_labels (by rfl) ?_ ?_ ?_ ?_ ?_ ?_
  · intro q; simp only [skipped]; split <;> rfl
  · intro q; simp only [skipped, cursor]; split
    · rename_i e; subst e; exact hc
    · exact Nat.le_refl _
  · intro q pos _
    have e : ((skipped s p c).pages q).contents = (s.pages q).contents := by
      simp only [skipped]; split <;> rfl
    simp only [byteAt, e]; rfl
  all_goals (intro q; simp only [skipped]; split <;> rfl)

theorem Grows.alignOp {p} (k) (hk : k ≤ 28) : Grows base (alignOp k p) := by
  refine .of_safe (safe_alignOp k hk trivial) fun s hi => ?_
  rw [alignOp_run]
  exact grow_skipped p _ (alignUp_ge hi k p hk)

theorem Grows.pageCall {p} (c : PageCall) (hp : p < 3) (hc : ∀ pos v, c ≠ .poke pos v) : Grows base (c.run p) := by
  cases c with
  | align_page => exact .alignOp 12 (by omega)
  | align16 => exact .alignOp 4 (by omega)
  | align8 => exact .alignOp 3 (by omega)
  | align4 => exact .alignOp 2 (by omega)
  | emitb v => exact .emitb v hp
  | emitw v => exact .emitw v hp
  | emitl v => exact .emitl v hp
  | emitq v => exact .emitq v hp
  | poke pos v => exact absurd rfl (hc pos v)

/-! ### Labels -/

/-- Same memory and pages, same targets. -/
theorem grow_of_targets {s s' : JitMemory} (hm : s'.mem = s.mem) (hp : s'.pages = s.pages)
    (ht : ∀ l, targets s' l = targets s l) : Grow s s' := by
  have hb : ∀ p pos, byteAt s' p pos = byteAt s p pos := fun p pos => by simp only [byteAt, hm, hp]
  have hc : ∀ p, cursor s' p = cursor s p := fun p => by simp only [cursor, hp]
  refine ⟨fun _ => by rw [hp], fun _ => by rw [hc]; exact Nat.le_refl _, fun _ _ _ => hb _ _,
    fun l => ⟨[], by simp [ht]⟩, fun _ => by rw [hp], fun _ => by rw [hp], fun _ => by rw [hp], ?_, ?_⟩
  · intro h
    refine ⟨fun l t h1 h2 => ?_, ?_, ?_, ?_, ?_⟩
    · rw [ht] at h1; rw [hc]; exact h.inside l t h1 h2
    · intro l l' i i' t t' h1 h2
      rw [ht] at h1 h2; exact h.apart l l' i i' t t' h1 h2
    · intro l t h1; rw [ht] at h1; rw [hc]; exact h.low l t h1
    · intro l t h1; rw [ht] at h1; exact h.aligned l t h1
    · intro l l' t u h1 h2; rw [ht] at h1 h2; exact h.dead l l' t u h1 h2
  · intro _ hz l t h1 h2 pos hc
    rw [ht] at h1
    rw [hb]; exact hz l t h1 h2 pos hc

theorem modify_loc_grow {s : JitMemory} {l : Nat} {f : LabelInfo → LabelInfo} (hf : ∀ i, (f i).target = i.target) :
    Grow s (modifyLabel l f s).state := by
  simp only [modifyLabel]
  split
  · rename_i hl
    refine grow_of_targets rfl rfl fun l' => ?_
    simp only [Res.state_ok]
    rw [targets_modify s l _ l' hl]
    split
    · rename_i e; subst e; simp [targets, hl, hf]
    · rfl
  · exact .refl s

theorem Grows.bind_label (l) : Grows base (JitMemory.bind_label l) := by
  refine .of_safe (safe_bind_label l) fun s hi => ?_
  simp only [JitMemory.bind_label, cur_bind]
  rw [ok_bind (s1 := s) (by rfl)]
  exact modify_loc_grow fun _ => rfl

theorem Grows.bind_label_with_page (p l) : Grows base (JitMemory.bind_label_with_page p l) := by
  refine .of_safe (safe_bind_label_with_page p l) fun s hi => ?_
  simp only [JitMemory.bind_label_with_page]
  by_cases hp : p < 3
  · rw [ok_bind (a := ()) (s1 := s) (by simp [Monoasm.checkPage, hp]), ok_bind (s1 := s) (by rfl)]
    exact modify_loc_grow fun _ => rfl
  · rw [panic_bind (e := .indexOutOfBounds) (s1 := s) (by simp [Monoasm.checkPage, hp])]
    exact .refl s

theorem targets_append_new (s : JitMemory) (l : Nat) :
    targets { s with labels := s.labels ++ [LabelInfo.new] } l = targets s l := by
  by_cases h : l < s.labels.length
  · simp [targets, List.getElem?_append, h]
  · have e : s.labels[l]? = none := List.getElem?_eq_none (by omega)
    by_cases h' : l = s.labels.length
    · subst h'; simp [targets, LabelInfo.new]
    · have e' : (s.labels ++ [LabelInfo.new])[l]? = none := List.getElem?_eq_none (by simp; omega)
      simp only [targets, e, e']

theorem Grows.newCall (c : NewCall) : Grows base c.run := by
  refine .of_safe (safe_newCall c) fun s hi => ?_
  rw [newCall_run]
  have g : Grow s { s with labels := s.labels ++ [LabelInfo.new] } :=
    grow_of_targets rfl rfl (targets_append_new s)
  refine g.trans ?_
  refine grow_of_labels (by rfl) ?contents ?cursor ?mem ?x ?y ?z
  case mem =>
    intro q pos _
    simp only [byteAt, newState, Res.state_ok]
    split <;> rfl
  all_goals (intro q; simp only [newState, Res.state_ok, cursor]; split <;> first | rfl | exact Nat.le_refl _)

/-- Recording a field at the cursor and emitting the zeros it covers (or panicking because they do
    not fit). -/
theorem slot_grow {s : JitMemory} (hi : Inv base s) {p : Page} (hp3 : p < 3) {l : Nat} {t : TargetType}
    (htp : t.page = p) (htc : t.pos = (s.pages p).counter) (hta : t.size = 4 ∨ t.pos % 8 = 0) (hl : l < s.labels.length) {s1 : JitMemory}
    (hs1 : s1 = { s with labels := s.labels.modify l fun i => { i with target := i.target ++ [t] } })
    {s' : JitMemory} (h : ((s.pages p).counter + t.size ≤ PAGE_SIZE ∧ s' = emitted s1 p (List.replicate t.size 0))
      ∨ (¬ Live t ∧ Grow s1 s')) (hlab : s'.labels = s1.labels) : Grow s s' := by
  have hpages : s1.pages = s.pages := by rw [hs1]
  have hmem : s1.mem = s.mem := by rw [hs1]
  have ht : ∀ l', targets s' l' = if l' = l then targets s l ++ [t] else targets s l' := by
    intro l'
    have : targets s' l' = targets s1 l' := by simp only [targets, hlab]
    rw [this, hs1, targets_modify s l _ l' hl]
    split
    · simp [targets, hl]
    · rfl
  have hc1 : ∀ q, cursor s1 q = cursor s q := fun q => by simp only [cursor, hpages]
  have hb1 : ∀ q pos, byteAt s1 q pos = byteAt s q pos := fun q pos => by simp only [byteAt, hpages, hmem]
  have hi1 : Inv base s1 := by
    rw [hs1]
    refine hi.modifyLabel (fun i p c h => .inl h) fun i t' ht' => ?_
    simp only [List.mem_append, List.mem_singleton] at ht'
    rcases ht' with h' | rfl
    · exact .inl h'
    · right
      rw [htc, htp]
      exact ⟨hp3, hi.counter p⟩
  have g : Grow s1 s' := by
    rcases h with ⟨h1, rfl⟩ | ⟨_, h2⟩
    · exact grow_emitted hi1 p _ (by rw [hpages]; simpa using h1)
    · exact h2
  -- the new field lies between the old and the new cursor
  have hnew : Live t → t.pos + t.size ≤ cursor s' p := by
    intro hlive
    rcases h with ⟨h1, rfl⟩ | ⟨h1, _⟩
    · simp [emitted, cursor, hpages, htc]
    · exact absurd hlive h1
  have hold : ∀ {l' t'}, t' ∈ targets s' l' → t' ∈ targets s l' ∨ t' = t := by
    intro l' t' h'
    rw [ht] at h'
    split at h'
    · rename_i e; subst e
      simpa using h'
    · exact .inl h'
  have hidx : ∀ {l' i' t'}, (targets s' l')[i']? = some t' →
      (targets s l')[i']? = some t' ∨ (t' = t ∧ l' = l ∧ i' = (targets s l).length) := by
    intro l' i' t' h'
    rw [ht] at h'
    split at h'
    · rename_i e; subst e
      rw [List.getElem?_append] at h'
      split at h'
      · exact .inl h'
      · simp only [List.getElem?_singleton] at h'
        split at h'
        · simp only [Option.some.injEq] at h'
          exact .inr ⟨h'.symm, rfl, by omega⟩
        · cases h'
    · exact .inl h'
  refine ⟨fun q => by rw [g.contents, hpages], fun q => by rw [← hc1]; exact g.cursor q,
    fun q pos hq => by rw [g.mem q pos (by rw [hc1]; exact hq), hb1], ?_,
    fun q => by rw [g.code_len, hpages], fun q => by rw [g.code_block_top, hpages],
    fun q => by rw [g.code_block, hpages], ?_, ?_⟩
  · intro l'
    rw [ht]
    split
    · rename_i e; subst e
      exact ⟨[t], rfl, by simp [htp, htc, cursor]⟩
    · exact ⟨[], by simp, by simp⟩
  · intro hs
    have hup : ∀ q, cursor s q ≤ cursor s' q := fun q => by rw [← hc1]; exact g.cursor q
    refine ⟨?_, ?_, ?_, ?_, ?_⟩
    · intro l' t' h' hlive
      rcases hold h' with h' | rfl
      · exact Nat.le_trans (hs.inside l' t' h' hlive) (by rw [← hc1]; exact g.cursor _)
      · rw [htp]; exact hnew hlive
    · intro l1 l2 i1 i2 t1 t2 h1 h2 hne hv1 hv2
      rcases hidx h1 with h1 | ⟨rfl, rfl, rfl⟩ <;> rcases hidx h2 with h2 | ⟨rfl, rfl, rfl⟩
      · exact hs.apart l1 l2 i1 i2 t1 t2 h1 h2 hne hv1 hv2
      · have := hs.inside l1 t1 (List.mem_of_getElem? h1) hv1
        by_cases e : t1.page = t2.page
        · right; left
          rw [e, htp] at this
          rw [htc]; exact this
        · exact .inl e
      · have := hs.inside l2 t2 (List.mem_of_getElem? h2) hv2
        by_cases e : t1.page = t2.page
        · right; right
          rw [← e, htp] at this
          rw [htc]; exact this
        · exact .inl e
      · simp at hne
    · intro l' t' h'
      rcases hold h' with h' | rfl
      · exact Nat.le_trans (hs.low l' t' h') (hup _)
      · rw [htc]; rw [htp]; exact hup p
    · intro l' t' h'
      rcases hold h' with h' | rfl
      · exact hs.aligned l' t' h'
      · exact hta
    · intro l1 l2 t1 t2 h1 h2 hd hv e
      rcases hold h1 with h1 | rfl <;> rcases hold h2 with h2 | rfl
      · exact hs.dead l1 l2 t1 t2 h1 h2 hd hv e
      · exfalso
        have q1 := hs.low l1 t1 h1
        have q2 := hs.aligned l1 t1 h1
        rw [← e, htp] at q1
        have q3 : t2.pos = cursor s p := htc
        have q4 : 4 ≤ t2.size := by cases t2 <;> simp [TargetType.size]
        have q5 : t1.size = 4 ∨ t1.size = 8 := by cases t1 <;> simp [TargetType.size]
        simp only [Live] at hd hv
        rw [PAGE_SIZE_eq] at hd hv
        omega
      · have q1 := hs.inside l2 t2 h2 hv
        rw [e, htp] at q1
        rw [htc]; exact q1
      · exact absurd hv hd
  · intro hs hz l' t' h' hlive pos hc
    rcases hold h' with h' | rfl
    · have h2 := hs.inside l' t' h' hlive
      have h3 : pos < cursor s t'.page := Nat.lt_of_lt_of_le hc.2.2 h2
      rw [g.mem _ _ (by rw [hc1]; exact h3), hb1]
      exact hz l' t' h' hlive pos hc
    · rcases h with ⟨h1, rfl⟩ | ⟨h1, _⟩
      · have e : ((emitted s1 p (List.replicate t'.size 0)).pages t'.page).contents = (s.pages t'.page).contents := by
          rw [g.contents, hpages]
        obtain ⟨_, h2, h3⟩ := hc
        rw [htc] at h2 h3
        simp only [byteAt, e]
        simp only [emitted, hpages, htp]
        obtain ⟨i, rfl⟩ := Nat.exists_eq_add_of_le h2
        rw [← Nat.add_assoc, putBytes_in _ (by simp; omega)]
        simp
      · exact absurd hlive h1

theorem le32_zero : le32 0 = List.replicate 4 0 := rfl
theorem le64_zero : le64 0 = List.replicate 8 0 := rfl

theorem save_reloc_run (l : Nat) (off s) : JitMemory.save_reloc l off s =
    if l < s.labels.length then .ok () { s with labels := s.labels.modify l fun i =>
      { i with target := i.target ++ [.rel s.page off (s.pages s.page).counter] } }
    else .panic .indexOutOfBounds s := rfl

theorem save_absolute_reloc_run (p) (l : Nat) (s) : JitMemory.save_absolute_reloc p l s =
    if l < s.labels.length then .ok () { s with labels := s.labels.modify l fun i =>
      { i with target := i.target ++ [.abs p (s.pages p).counter] } }
    else .panic .indexOutOfBounds s := rfl

theorem Grows.rel (l off) : Grows base (Item.rel l off).run := by
  refine .of_safe (safe_item _ (by simp)) fun s hi => ?_
  simp only [Item.run]
  by_cases hl : l < s.labels.length
  · rw [ok_bind (by rw [save_reloc_run, if_pos hl])]
    simp only [JitMemory.emitl, cur_bind, emitl_run]
    have hp3 : s.page < 3 := Nat.lt_trans hi.page (by decide)
    refine slot_grow (p := s.page) (t := .rel s.page off (s.pages s.page).counter) hi hp3 rfl rfl (.inl rfl) hl rfl ?_ ?_
    · simp only [Monoasm.emitRes]
      split
      · rename_i h; exact .inl ⟨h, rfl⟩
      · rename_i h
        refine .inr ⟨h, ?_⟩
        have hi1 : Inv base { s with labels := s.labels.modify l fun i =>
            { i with target := i.target ++ [.rel s.page off (s.pages s.page).counter] } } := by
          refine hi.modifyLabel (fun i p c h => .inl h) fun i t' ht' => ?_
          simp only [List.mem_append, List.mem_singleton] at ht'
          rcases ht' with h' | rfl
          · exact .inl h'
          · exact .inr ⟨hp3, hi.counter _⟩
        exact grow_spilled hi1 _ _
    · simp only [Monoasm.emitRes]; split <;> rfl
  · rw [panic_bind (by rw [save_reloc_run, if_neg hl])]
    exact .refl s

theorem Grows.item (it : Item) : Grows base it.run := by
  cases it with
  | i8 v => exact .onCur fun p hp => .emitb v hp
  | i16 v => exact .onCur fun p hp => .emitw v hp
  | i32 v => exact .onCur fun p hp => .emitl v hp
  | i64 v => exact .onCur fun p hp => .emitq v hp
  | rel l off => exact .rel l off
  | bind l => exact .bind_label l
  | fail e => exact .panic e

theorem Grows.items (its : List Item) : Grows base (runItems its) := by
  induction its with
  | nil => exact .pure ()
  | cons i is ih => exact .bind (.item i) fun _ => ih

theorem Grows.select_page (p) : Grows base (JitMemory.select_page p) := by
  intro s hi
  refine ⟨select_page_state hi p, ?_⟩
  simp only [JitMemory.select_page, M.bind_def, M.assert]
  by_cases h : p < 2
  · simp only [h, decide_true, if_true]
    exact grow_of_targets rfl rfl fun _ => rfl
  · simp only [h, decide_false, Bool.false_eq_true, if_false]
    exact .refl s

/-- Calls that only add. -/
def Op.adds : Op → Prop
  | .cur (.poke _ _) => False
  | .page _ (.poke _ _) => False
  | .save_reloc _ _ => False
  | .finalize => False
  | .apply_jmp_patch _ _ => False
  | .apply_jmp_patch_address _ _ => False
  | _ => True

theorem Grows.op {op : Op} (h : op.adds) : Grows base op.run := by
  cases op with
  | select_page p => exact .select_page p
  | cur c =>
    refine .onCur fun p hp => .pageCall c hp ?_
    rintro pos v rfl; exact h
  | page p c =>
    refine .of_state fun s _ => ?_
    by_cases hp : p < 3
    · exact ⟨_, ok_bind (a := ()) (s1 := s) (by simp [Monoasm.checkPage, hp]), .pageCall c hp (by
        rintro pos v rfl; exact h)⟩
    · exact ⟨M.panic .indexOutOfBounds, panic_bind (by simp [Monoasm.checkPage, hp]), .panic _⟩
  | emit bs => rw [Op.run_items rfl]; exact .items _
  | new c => exact .bind (.newCall c) fun _ => .pure ()
  | bind_label l => exact .bind_label l
  | bind_label_with_page p l => exact .bind_label_with_page p l
  | save_reloc l off => exact h.elim
  | enc c => rw [Op.run_items rfl]; exact .items _
  | inst i =>
    obtain ⟨its, e⟩ : ∃ its, (Op.inst i).itemsOf = some its := by
      simp only [Op.itemsOf]; split <;> exact ⟨_, rfl⟩
    rw [Op.run_items e]; exact .items _
  | finalize => exact h.elim
  | apply_jmp_patch p d => exact h.elim
  | apply_jmp_patch_address a d => exact h.elim

end
end Monoasm
