import Verif.Proofs.Outside
import Verif.Spec.Swap
/-
  Calls on a `JitMemory` whose pages are anywhere: they write to these pages only, and do not move them.
-/

namespace Monoasm
open JitMemory Spec

/-- Pages are named by numbers below 3. -/
structure Fit (s : JitMemory) : Prop where
  page : s.page < 3
  tgt : ∀ i ∈ s.labels, ∀ t ∈ i.target, t.page < 3

/-- An address in one of the pages. -/
def InPages (s : JitMemory) (a : Nat) : Prop :=
  ∃ p, p < 3 ∧ (s.pages p).contents ≤ a ∧ a < (s.pages p).contents + PAGE_SIZE

/-- `s'` after a call from `s`. -/
structure Homed (s s' : JitMemory) : Prop where
  fit : Fit s'
  contents : ∀ p, (s'.pages p).contents = (s.pages p).contents
  mem : ∀ a, ¬ InPages s a → s'.mem a = s.mem a

/-- `c` writes to the pages only, and its results satisfy `Q`. -/
def Kind {α} (Q : α → Prop) (c : M α) : Prop :=
  ∀ s, Fit s → Homed s (c s).state ∧ ∀ a t, c s = .ok a t → Q a

section
variable {α β : Type} {Q : α → Prop} {P : β → Prop}

theorem Homed.refl {s : JitMemory} (h : Fit s) : Homed s s := ⟨h, fun _ => rfl, fun _ _ => rfl⟩

theorem inPages_of_kept {s t : JitMemory} (h : Homed s t) (a) : InPages t a ↔ InPages s a := by
  simp only [InPages, h.contents]

theorem Homed.trans {s t u : JitMemory} (h : Homed s t) (h' : Homed t u) : Homed s u :=
  ⟨h'.fit, fun p => (h'.contents p).trans (h.contents p), fun a ha =>
    (h'.mem a fun hi => ha ((inPages_of_kept h a).1 hi)).trans (h.mem a ha)⟩

theorem Kind.bind {c : M α} {f : α → M β} (hc : Kind Q c) (hf : ∀ a, Q a → Kind P (f a)) : Kind P (c >>= f) := by
  intro s hs
  obtain ⟨k, q⟩ := hc s hs
  rw [M.bind_def]
  cases e : c s with
  | ok a t =>
    rw [e] at k
    obtain ⟨k', q'⟩ := hf a (q a t e) t k.fit
    exact ⟨k.trans k', q'⟩
  | panic er t =>
    rw [e] at k
    exact ⟨k, fun _ _ h => by cases h⟩

theorem Kind.any {c : M α} (h : Kind Q c) : Kind (fun _ => True) c := fun s hs => ⟨(h s hs).1, fun _ _ _ => trivial⟩

abbrev Any {γ : Type} : γ → Prop := fun _ => True

theorem Kind.seq {c : M Unit} {d : M β} (hc : Kind Any c) (hd : Kind P d) : Kind P (do c; d) := .bind hc fun _ _ => hd

theorem Kind.pure (a : α) (ha : Q a) : Kind Q (pure a : M α) := fun s hs =>
  ⟨.refl hs, fun _ _ e => by cases e; exact ha⟩
theorem Kind.done (a : α) : Kind Any (Pure.pure a : M α) := .pure a trivial
theorem Kind.panic (e) : Kind Q (M.panic e : M α) := fun s hs => ⟨.refl hs, fun _ _ e => by cases e⟩
theorem Kind.modify {f : JitMemory → JitMemory} (hf : ∀ s, Fit s → Homed s (f s)) : Kind Any (M.modify f) :=
  fun s hs => ⟨hf s hs, fun _ _ _ => trivial⟩
theorem Kind.assert (b) : Kind Any (M.assert b) := fun _ hs => by
  simp only [M.assert]; split <;> exact ⟨.refl hs, fun _ _ _ => trivial⟩
theorem Kind.assertThen (b : Bool) {d : M β} (hd : b = true → Kind P d) : Kind P (do M.assert b; d) := by
  cases b
  · intro s hs; exact ⟨.refl hs, fun _ _ e => by cases e⟩
  · exact .seq (.assert _) (hd rfl)
theorem Kind.checkPage (p) {d : M β} (hd : p < 3 → Kind P d) : Kind P (do Monoasm.checkPage p; d) := by
  intro s hs
  rw [M.bind_def, Monoasm.checkPage]
  by_cases h : p < 3
  · rw [if_pos h]; exact hd h s hs
  · rw [if_neg h]; exact ⟨.refl hs, fun _ _ e => by cases e⟩
theorem Kind.cur : Kind (· < 3) JitMemory.cur := fun s hs => ⟨.refl hs, fun a t e => by cases e; exact hs.page⟩
theorem Kind.counterOf (p) : Kind Any (MemPage.counterOf p) := fun _ hs => ⟨.refl hs, fun _ _ _ => trivial⟩

theorem Homed.updPage {s : JitMemory} (h : Fit s) (p : Page) {f : MemPage → MemPage} (hf : ∀ pg, (f pg).contents = pg.contents) :
    Homed s (s.updPage p f) :=
  ⟨⟨h.page, h.tgt⟩, fun q => by simp only [JitMemory.updPage]; split <;> simp [hf], fun _ _ => rfl⟩

theorem Kind.setCounter (p c) : Kind Any (MemPage.setCounter p c) := .modify fun _ hs => .updPage hs p fun _ => rfl
theorem Kind.codePtrFrom (x) : Kind Any (JitMemory.codePtrFrom x) := by
  simp only [JitMemory.codePtrFrom]; split
  · exact .panic _
  · exact .pure _ trivial

theorem Kind.get (f : JitMemory → M β) (hf : ∀ s, Fit s → Kind P (f s)) : Kind P (M.get >>= f) :=
  fun s hs => hf s hs s hs

theorem Kind.write {p} (hp : p < 3) (pos v) : Kind Any (MemPage.write p pos v) := by
  intro s hs
  refine ⟨?_, fun _ _ _ => trivial⟩
  simp only [MemPage.write]
  by_cases h : pos ≥ PAGE_SIZE
  · rw [if_pos h]; exact .refl hs
  · rw [if_neg h]
    refine ⟨⟨hs.page, hs.tgt⟩, fun _ => rfl, fun a ha => ?_⟩
    simp only [Res.state, upd]
    rw [if_neg]
    intro e
    exact ha ⟨p, hp, by omega, by omega⟩

theorem Kind.align_page (p) : Kind Any (MemPage.align_page p) := .bind (.counterOf p) fun _ _ => .setCounter _ _
theorem Kind.align16 (p) : Kind Any (MemPage.align16 p) := .bind (.counterOf p) fun _ _ => .setCounter _ _
theorem Kind.align8 (p) : Kind Any (MemPage.align8 p) := .bind (.counterOf p) fun _ _ => .setCounter _ _
theorem Kind.align4 (p) : Kind Any (MemPage.align4 p) := .bind (.counterOf p) fun _ _ => .setCounter _ _
theorem Kind.emitb {p} (hp : p < 3) (v) : Kind Any (MemPage.emitb p v) :=
  .bind (.counterOf p) fun _ _ => .seq (.write hp _ _) (.setCounter _ _)
theorem Kind.emitw {p} (hp : p < 3) (v) : Kind Any (MemPage.emitw p v) :=
  .bind (.counterOf p) fun _ _ => .seq (.write hp _ _) (.seq (.write hp _ _) (.setCounter _ _))
theorem Kind.emitl {p} (hp : p < 3) (v) : Kind Any (MemPage.emitl p v) :=
  .bind (.counterOf p) fun _ _ =>
    .seq (.write hp _ _) (.seq (.write hp _ _) (.seq (.write hp _ _) (.seq (.write hp _ _) (.setCounter _ _))))
theorem Kind.emitq {p} (hp : p < 3) (v) : Kind Any (MemPage.emitq p v) := .seq (.emitl hp _) (.emitl hp _)
theorem Kind.write32 {p} (hp : p < 3) (pos v) : Kind Any (MemPage.write32 p pos v) :=
  .seq (.write hp _ _) (.seq (.write hp _ _) (.seq (.write hp _ _) (.write hp _ _)))

theorem Homed.withLabels {s : JitMemory} (h : Fit s) {ls : List LabelInfo} (hl : ∀ i ∈ ls, ∀ t ∈ i.target, t.page < 3) :
    Homed s { s with labels := ls } := ⟨⟨h.page, hl⟩, fun _ => rfl, fun _ _ => rfl⟩

theorem Kind.labelInfo (l) : Kind Any (JitMemory.labelInfo l) := fun s hs => by
  refine ⟨?_, fun _ _ _ => trivial⟩
  simp only [JitMemory.labelInfo]; split <;> exact .refl hs

theorem Kind.modifyLabel (l) {f : LabelInfo → LabelInfo}
    (hf : ∀ i : LabelInfo, (∀ t ∈ i.target, t.page < 3) → ∀ t ∈ (f i).target, t.page < 3) : Kind Any (JitMemory.modifyLabel l f) := by
  intro s hs
  refine ⟨?_, fun _ _ _ => trivial⟩
  simp only [JitMemory.modifyLabel]
  split
  · refine .withLabels hs fun i hi => ?_
    obtain ⟨n, hn, e⟩ := List.getElem_of_mem hi
    subst e
    rw [List.getElem_modify]
    split
    · exact hf _ (hs.tgt _ (List.getElem_mem _))
    · exact hs.tgt _ (List.getElem_mem _)
  · exact .refl hs

theorem Kind.addTarget (l) {t : TargetType} (ht : t.page < 3) :
    Kind Any (JitMemory.modifyLabel l fun i => { i with target := i.target ++ [t] }) :=
  .modifyLabel l fun i hi u hu => by
    rcases List.mem_append.1 hu with h | h
    · exact hi u h
    · rw [List.mem_singleton.1 h]; exact ht

theorem Kind.label : Kind Any JitMemory.label := fun s hs => by
  refine ⟨?_, fun _ _ _ => trivial⟩
  refine .withLabels hs fun i hi => ?_
  rcases List.mem_append.1 hi with h | h
  · exact hs.tgt i h
  · rw [List.mem_singleton.1 h]; intro t ht; cases ht
theorem Kind.pushConstant (d l) : Kind Any (JitMemory.pushConstant d l) := .modify fun _ hs => .updPage hs _ fun _ => rfl
theorem Kind.pushData (d l) : Kind Any (JitMemory.pushData d l) := .modify fun _ hs => .updPage hs _ fun _ => rfl

theorem Kind.newCall (c : NewCall) : Kind Any c.run := by
  cases c
  case label => exact .label
  all_goals
    refine .bind .label fun _ _ => .seq ?_ (.pure _ trivial)
    first | exact .pushConstant _ _ | exact .pushData _ _

theorem Kind.bindAt (l : DestLabel) (p : Page) (c : Nat) :
    Kind Any (JitMemory.modifyLabel l fun i => { i with loc := some (p, c) }) := .modifyLabel l fun _ hi => hi

theorem Kind.bind_label (l) : Kind Any (JitMemory.bind_label l) :=
  .bind .cur fun _ _ => .bind (.counterOf _) fun _ _ => .bindAt _ _ _
theorem Kind.bind_label_with_page (p l) : Kind Any (JitMemory.bind_label_with_page p l) :=
  .checkPage p fun _ => .bind (.counterOf _) fun _ _ => .bindAt _ _ _
theorem Kind.save_reloc (l off) : Kind Any (JitMemory.save_reloc l off) :=
  .bind .cur fun _ hp => .bind (.counterOf _) fun _ _ => .addTarget _ hp

theorem Kind.items (its : List Item) : Kind Any (runItems its) := by
  induction its with
  | nil => exact .done _
  | cons i is ih =>
    refine .seq ?_ ih
    cases i with
    | i8 v => exact .bind .cur fun _ hp => .emitb hp _
    | i16 v => exact .bind .cur fun _ hp => .emitw hp _
    | i32 v => exact .bind .cur fun _ hp => .emitl hp _
    | i64 v => exact .bind .cur fun _ hp => .emitq hp _
    | rel l off => exact .seq (.save_reloc l off) (.bind .cur fun _ hp => .emitl hp _)
    | bind l => exact .bind_label l
    | fail e => exact .panic e

theorem Kind.pageCall {p} (hp : p < 3) (c : PageCall) : Kind Any (c.run p) := by
  cases c with
  | align_page => exact .align_page p
  | align16 => exact .align16 p
  | align8 => exact .align8 p
  | align4 => exact .align4 p
  | emitb v => exact .emitb hp v
  | emitw v => exact .emitw hp v
  | emitl v => exact .emitl hp v
  | emitq v => exact .emitq hp v
  | poke pos v => exact .write hp _ _

theorem Kind.select_page (p) : Kind Any (JitMemory.select_page p) := .assertThen _ fun h => .modify fun s hs =>
  ⟨⟨Nat.lt_trans (by simpa using h) (by decide : 2 < 3), hs.tgt⟩, fun _ => rfl, fun _ _ => rfl⟩

/-! ### `finalize` -/

theorem Kind.emitZeros {p} (hp : p < 3) (n) : Kind Any (JitMemory.emitZeros p n) := by
  induction n with
  | zero => exact .done _
  | succ n ih => exact .seq (.emitb hp 0) ih

theorem Kind.resolveOne {p} (hp : p < 3) (d l) : Kind Any (JitMemory.resolveOne p d l) := by
  cases d with
  | u64 v => exact .seq (.align16 p) (.seq (.bind_label_with_page p l) (.emitq hp v))
  | u32 v => exact .seq (.align4 p) (.seq (.bind_label_with_page p l) (.emitl hp v))
  | bytes n => exact .seq (.align16 p) (.seq (.bind_label_with_page p l) (.emitZeros hp n))
  | absAddress x =>
    exact .seq (.align8 p) (.seq (.bind_label_with_page p l)
      (.seq (.bind (.counterOf _) fun _ _ => .addTarget _ hp) (.emitq hp 0)))
  | align8 => exact .seq (.align8 p) (.bind_label_with_page p l)

theorem Kind.resolveList {p} (hp : p < 3) (xs) : Kind Any (JitMemory.resolveList p xs) := by
  induction xs with
  | nil => exact .done _
  | cons x xs ih => exact .seq (.resolveOne hp x.1 x.2) ih

theorem Kind.resolveConstantsOf {p} (hp : p < 3) : Kind Any (JitMemory.resolveConstantsOf p) :=
  .get _ fun _ _ => .seq (.modify fun _ hs => .updPage hs p fun _ => rfl) (.resolveList hp _)
theorem Kind.resolveDataOf (p) : Kind Any (JitMemory.resolveDataOf p) :=
  .get _ fun _ _ => .seq (.modify fun _ hs => .updPage hs p fun _ => rfl) (.resolveList (by decide) _)

theorem Kind.fillTarget (z) {t : TargetType} (ht : t.page < 3) : Kind Any (JitMemory.fillTarget z t) := by
  cases t with
  | rel p off pos =>
    refine .get _ fun s _ => ?_
    dsimp only
    split
    · exact .write32 ht _ _
    · exact .panic _
  | abs p pos =>
    have hp : p < 3 := ht
    exact .seq (.write hp _ _) (.seq (.write hp _ _) (.seq (.write hp _ _) (.seq (.write hp _ _)
      (.seq (.write hp _ _) (.seq (.write hp _ _) (.seq (.write hp _ _) (.write hp _ _)))))))

theorem Kind.fillTargets (z) {ts : List TargetType} (ht : ∀ t ∈ ts, t.page < 3) : Kind Any (JitMemory.fillTargets z ts) := by
  induction ts with
  | nil => exact .done _
  | cons t ts ih => exact .seq (.fillTarget z (ht t (by simp))) (ih fun u hu => ht u (by simp [hu]))

theorem Kind.fillLabel {r : LabelInfo} (hr : ∀ t ∈ r.target, t.page < 3) :
    Kind (fun r' : LabelInfo => ∀ t ∈ r'.target, t.page < 3) (JitMemory.fillLabel r) := by
  simp only [JitMemory.fillLabel]
  split
  · exact .get _ fun _ _ => .seq (.fillTargets _ hr) (.pure _ fun t ht => by cases ht)
  · exact .pure _ hr

theorem Kind.fillLabels {rs : List LabelInfo} (hr : ∀ r ∈ rs, ∀ t ∈ r.target, t.page < 3) :
    Kind (fun rs' : List LabelInfo => ∀ r ∈ rs', ∀ t ∈ r.target, t.page < 3) (JitMemory.fillLabels rs) := by
  induction rs with
  | nil => exact .pure _ fun r h => by cases h
  | cons r rs ih =>
    refine .bind (.fillLabel (hr r (by simp))) fun r' h1 => .bind (ih fun x hx => hr x (by simp [hx])) fun rs' h2 => .pure _ ?_
    intro x hx
    rcases List.mem_cons.1 hx with rfl | h
    · exact h1
    · exact h2 x h

theorem Kind.fill_relocs : Kind Any JitMemory.fill_relocs :=
  .get _ fun s hs => .seq (.modify fun _ h => .withLabels h fun i hi => by cases hi)
    (.bind (.fillLabels hs.tgt) fun _ h => .modify fun _ hs => .withLabels hs h)

theorem Kind.forPages {f : MemPage → MemPage} (hf : ∀ pg, (f pg).contents = pg.contents) : Kind Any (JitMemory.forPages f) :=
  .modify fun s hs => ⟨⟨hs.page, hs.tgt⟩, fun p => by dsimp only; split <;> simp [hf], fun _ _ => rfl⟩

theorem Kind.finalize : Kind Any JitMemory.finalize :=
  .seq (.forPages fun _ => rfl) (.seq (.seq (.resolveConstantsOf (by decide)) (.resolveConstantsOf (by decide)))
    (.seq (.seq (.resolveDataOf 0) (.resolveDataOf 1)) (.seq (.forPages fun _ => rfl) (.seq .fill_relocs (.forPages fun _ => rfl)))))

theorem Kind.op {op : Op} (hp : ¬ op.isPatch) : Kind Any op.run := by
  cases op with
  | select_page p => exact .select_page p
  | cur c => exact .bind .cur fun _ hp => .pageCall hp c
  | page p c => exact .checkPage p fun hp => .pageCall hp c
  | emit bs => rw [Op.run_items (op := .emit bs) rfl]; exact .items _
  | new c => exact .bind (.newCall c) fun _ _ => .done _
  | bind_label l => exact .bind_label l
  | bind_label_with_page p l => exact .bind_label_with_page p l
  | save_reloc l off => exact .save_reloc l off
  | enc c => rw [Op.run_items (op := .enc c) rfl]; exact .items _
  | inst i =>
    obtain ⟨its, e⟩ : ∃ its, (Op.inst i).itemsOf = some its := by
      simp only [Op.itemsOf]; split <;> exact ⟨_, rfl⟩
    rw [Op.run_items e]; exact .items _
  | finalize => exact .finalize
  | apply_jmp_patch p d => exact absurd trivial hp
  | apply_jmp_patch_address a d => exact absurd trivial hp

end

/-! ### Several `JitMemory`s -/

theorem op_fit (op : Op) {s : JitMemory} (hs : Fit s) :
    Fit (op.run s).state ∧ ∀ p, ((op.run s).state.pages p).contents = (s.pages p).contents := by
  by_cases hp : op.isPatch
  · have : ∃ m, (op.run s).state = { s with mem := m } := by
      cases op <;> try exact hp.elim
      · rename_i p l
        have h := get_label_address_state p s
        simp only [Op.run, apply_jmp_patch, M.bind_def]
        cases e : JitMemory.get_label_address p s with
        | panic er t => rw [e] at h; exact ⟨s.mem, h⟩
        | ok x t =>
          rw [e] at h
          simp only [Res.state] at h
          subst h
          obtain ⟨m, h, -⟩ := patch_address_state x l t
          exact ⟨m, h⟩
      · obtain ⟨m, h, -⟩ := patch_address_state _ _ s
        exact ⟨m, h⟩
    obtain ⟨m, e⟩ := this
    rw [e]
    exact ⟨⟨hs.page, hs.tgt⟩, fun _ => rfl⟩
  · have h := (Kind.op hp s hs).1
    exact ⟨h.fit, h.contents⟩

/-- Each page is one of the pages of the allocations, and each of these is at one place. -/
structure Dealt (b : Nat → Nat) (F : Fleet) (σ : Nat → Page → Nat × Page) : Prop where
  fit : ∀ i, Fit (F.at i)
  contents : ∀ i p, p < 3 → ((F.jit i).pages p).contents = b (σ i p).1 + PAGE_SIZE * (σ i p).2
  page : ∀ i p, p < 3 → (σ i p).2 < 3
  once : ∀ i p j q, p < 3 → q < 3 → σ i p = σ j q → i = j ∧ p = q

variable {b : Nat → Nat} {F : Fleet} {σ : Nat → Page → Nat × Page}

theorem dealt_new (b : Nat → Nat) (m : Nat → Byte) : Dealt b (.new b m) fun i p => (i, p) where
  fit i := by
    have h := inv_new (b i) m
    exact ⟨Nat.lt_trans h.page (by decide), fun i hi => by cases hi⟩
  contents i p _ := (inv_new (b i) m).contents p
  page _ _ h := h
  once _ _ _ _ _ _ h := by cases h; exact ⟨rfl, rfl⟩

theorem Dealt.call (h : Dealt b F σ) (i : Nat) (op : Op) : Dealt b (F.call i op) σ := by
  obtain ⟨h1, h2⟩ := op_fit op (h.fit i)
  refine ⟨fun k => ?_, fun k p hp => ?_, h.page, h.once⟩
  · by_cases e : k = i
    · subst e
      simp only [Fleet.at, Fleet.call, if_true]
      exact ⟨h1.page, h1.tgt⟩
    · simp only [Fleet.at, Fleet.call, if_neg e]
      exact ⟨(h.fit k).page, (h.fit k).tgt⟩
  · by_cases e : k = i
    · subst e
      simp only [Fleet.call, if_true]
      rw [h2 p]
      exact h.contents k p hp
    · simp only [Fleet.call, if_neg e]
      exact h.contents k p hp

theorem Dealt.swap (h : Dealt b F σ) {i j : Nat} {p q : Page} (hp : p < 3) (hq : q < 3) :
    Dealt b (F.swap i p j q) fun k r => if k = i ∧ r = p then σ j q else if k = j ∧ r = q then σ i p else σ k r := by
  refine ⟨fun k => ⟨(h.fit k).page, (h.fit k).tgt⟩, fun k r hr => ?_, fun k r hr => ?_, fun k r k' r' hr hr' e => ?_⟩
  · simp only [Fleet.swap]
    split
    · exact h.contents j q hq
    · split
      · exact h.contents i p hp
      · exact h.contents k r hr
  · split
    · exact h.page j q hq
    · split
      · exact h.page i p hp
      · exact h.page k r hr
  · have o := fun k r k' r' a b c => h.once k r k' r' a b c
    have o1 := o k r k' r' hr hr'
    have o2 := o j q i p hq hp
    have o3 := o j q k' r' hq hr'
    have o4 := o i p k' r' hp hr'
    have o5 := o k r j q hr hq
    have o6 := o k r i p hr hp
    grind

theorem dealt_moves {ms : List Move} (hv : ∀ m ∈ ms, m.Valid) (h : Dealt b F σ) : ∃ τ, Dealt b (runMoves ms F) τ := by
  induction ms generalizing F σ with
  | nil => exact ⟨σ, h⟩
  | cons m ms ih =>
    have hm := hv m (by simp)
    cases m with
    | call i op => exact ih (fun m hm => hv m (by simp [hm])) (h.call i op)
    | swap i p j q =>
      exact ih (fun m hm => hv m (by simp [hm])) (h.swap hm.1 hm.2)

theorem Dealt.home (h : Dealt b F σ) {a : Nat} (ha : ∀ i, ¬ Owns (b i) a) (i : Nat) : ¬ InPages (F.at i) a := by
  rintro ⟨p, hp, h1, h2⟩
  rw [show ((F.at i).pages p) = (F.jit i).pages p from rfl, h.contents i p hp] at h1 h2
  have h3 := h.page i p hp
  refine ha (σ i p).1 ?_
  generalize (σ i p).2 = r at *
  have hr : r = 0 ∨ r = 1 ∨ r = 2 := page_cases h3
  simp only [Owns]
  rcases hr with rfl | rfl | rfl <;> omega

theorem call_home (h : Dealt b F σ) {i : Nat} {op : Op} (hp : ¬ op.isPatch) {a : Nat} (ha : ∀ i, ¬ Owns (b i) a) :
    (F.call i op).mem a = F.mem a :=
  (Kind.op hp _ (h.fit i)).1.mem a (h.home ha i)

/-- The other `JitMemory`s do not hold pages of `k`. -/
theorem Dealt.apart (h : Dealt b F σ) (hb : Scattered b) {k : Nat} (hk : ∀ p, p < 3 → σ k p = (k, p)) {i : Nat} (hi : i ≠ k)
    {a : Nat} (ha : Owns (b k) a) : ¬ InPages (F.at i) a := by
  rintro ⟨p, hp, h1, h2⟩
  rw [show ((F.at i).pages p) = (F.jit i).pages p from rfl, h.contents i p hp] at h1 h2
  have h3 := h.page i p hp
  have h4 : (σ i p).1 ≠ k := by
    intro e
    have := h.once i p k (σ i p).2 hp h3 (by rw [hk _ h3, ← e])
    exact hi this.1
  have h5 := hb _ _ h4
  simp only [Owns] at ha
  generalize (σ i p).2 = r at *
  have hr : r = 0 ∨ r = 1 ∨ r = 2 := page_cases h3
  rcases hr with rfl | rfl | rfl <;> omega

theorem alone_moves (hb : Scattered b) {k : Nat} {ms : List Move} (hs : ∀ m ∈ ms, m.Spares k) {t : JitMemory}
    (h : Dealt b F σ) (hk : ∀ p, p < 3 → σ k p = (k, p)) (ha : Alone (b k) (F.at k) t) :
    Alone (b k) ((runMoves ms F).at k) (runCaught (movesOf k ms) t) := by
  induction ms generalizing F σ t with
  | nil => exact ha
  | cons m ms ih =>
    have hm := hs m (by simp)
    have hs' := fun m hm => hs m (List.mem_cons_of_mem _ hm)
    cases m with
    | call i op =>
      by_cases e : i = k
      · subst e
        simp only [runMoves, Move.run, movesOf, if_true, runCaught_cons]
        refine ih hs' (h.call i op) hk ?_
        have := ha.step op
        simpa only [Fleet.at, Fleet.call, if_true] using this
      · simp only [runMoves, Move.run, movesOf, if_neg e]
        refine ih hs' (h.call i op) hk ?_
        have h1 : (F.call i op).at k = { F.at k with mem := (F.call i op).mem } := by
          simp only [Fleet.at, Fleet.call, if_neg (Ne.symm e)]
        rw [h1]
        exact ha.other fun a hO => (Kind.op (hm e) _ (h.fit i)).1.mem a (h.apart hb hk e hO)
    | swap i p j q =>
      obtain ⟨h1, h2, hp, hq⟩ := hm
      simp only [runMoves, Move.run, movesOf]
      obtain ⟨τ, hτ, e⟩ : ∃ τ, Dealt b (F.swap i p j q) τ ∧ ∀ r, τ k r = σ k r := by
        exact ⟨_, h.swap hp hq, fun r => by rw [if_neg (fun x => h1 x.1.symm), if_neg (fun x => h2 x.1.symm)]⟩
      refine ih hs' hτ (fun r hr => by rw [e, hk r hr]) ?_
      have h3 : (F.swap i p j q).at k = F.at k := by
        simp only [Fleet.at, Fleet.swap]
        congr 1
        funext r
        rw [if_neg (fun x => h1 x.1.symm), if_neg (fun x => h2 x.1.symm)]
      rw [h3]
      exact ha

end Monoasm
