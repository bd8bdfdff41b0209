import Verif.Spec.Machine
import Verif.Proofs.SafeFin
/-
  The model with natural numbers and the machine agree.
-/

set_option linter.unusedSimpArgs false
set_option linter.unusedVariables false

namespace Monoasm
open Spec

section
variable {base : Nat} {α β γ δ : Type} {R : α → β → Prop} {Q : γ → δ → Prop}

/-- From good states, both computations have the same outcome, and the model's state is good again. -/
def Mimics (base : Nat) (R : α → β → Prop) (m : M α) (w : Machine.M β) : Prop :=
  ∀ chk s t, Inv base s → Represents t s → SameOutcome R (m s) (w chk t) ∧ Inv base (m s).state

theorem Mimics.pure {a : α} {b : β} (h : R a b) : Mimics base R (Pure.pure a : M α) (Pure.pure b : Machine.M β) :=
  fun _ _ _ hi hr => ⟨.ok h hr, hi⟩

theorem Mimics.bind {m : M α} {w : Machine.M β} {f : α → M γ} {g : β → Machine.M δ} (hm : Mimics base R m w)
    (hf : ∀ a b, R a b → Mimics base Q (f a) (g b)) : Mimics base Q (m >>= f) (w >>= g) := by
  intro chk s t hi hr
  obtain ⟨h1, h2⟩ := hm chk s t hi hr
  show SameOutcome Q (M.bind m f s) (Machine.M.bind w g chk t) ∧ Inv base (M.bind m f s).state
  simp only [M.bind, Machine.M.bind]
  cases e1 : m s <;> cases e2 : w chk t <;> rw [e1, e2] at h1 <;> rw [e1] at h2
  · cases h1 with | ok hab hr' => exact hf _ _ hab chk _ _ h2 hr'
  · nomatch h1
  · nomatch h1
  · cases h1 with | panic hr' => exact ⟨.panic hr', h2⟩

theorem machine_bind {w : Machine.M α} {g : α → Machine.M β} {chk t a t'} (h : w chk t = .ok a t') :
    (w >>= g) chk t = g a chk t' := by
  show Machine.M.bind w g chk t = _
  simp only [Machine.M.bind, h]

theorem Mimics.panic {e} : Mimics base R (M.panic e : M α) (Machine.M.panic e : Machine.M β) :=
  fun _ _ _ hi hr => ⟨.panic hr, hi⟩

theorem Mimics.of_eq {m m' : M α} {w : Machine.M β} (h : ∀ s, m s = m' s) (hm : Mimics base R m' w) : Mimics base R m w := by
  rw [show m = m' from funext h]; exact hm

/-! Numbers -/

theorem toNat_posAdd {p : BitVec 64} (h : p.toNat ≤ PAGE_SIZE) (n : Nat) (hn : n ≤ 8) :
    p.toInt + ((BitVec.ofNat 32 n).signExtend 64).toInt = (p.toNat + n : Nat)
    ∧ (p + (BitVec.ofNat 32 n).signExtend 64).toNat = p.toNat + n := by
  have e : (BitVec.ofNat 32 n).signExtend 64 = BitVec.ofNat 64 n := by
    have : n = 0 ∨ n = 1 ∨ n = 2 ∨ n = 3 ∨ n = 4 ∨ n = 5 ∨ n = 6 ∨ n = 7 ∨ n = 8 := by omega
    rcases this with h | h | h | h | h | h | h | h | h <;> subst h <;> rfl
  rw [e]
  rw [PAGE_SIZE_eq] at h
  have e1 : p.toInt = p.toNat := BitVec.toInt_eq_toNat_of_lt (by omega)
  have e2 : (BitVec.ofNat 64 n).toNat = n := by simp only [BitVec.toNat_ofNat]; omega
  have e3 : (BitVec.ofNat 64 n).toInt = n := by
    rw [BitVec.toInt_eq_toNat_of_lt (by omega), e2]
  refine ⟨by rw [e1, e3]; omega, ?_⟩
  rw [BitVec.toNat_add, e2]; omega

theorem Mimics.posAdd {m : M α} {c : BitVec 64} {n : Nat} {g : BitVec 64 → Machine.M β} (hc : c.toNat ≤ PAGE_SIZE) (hn : n ≤ 8)
    (h : ∀ q : BitVec 64, q.toNat = c.toNat + n → Mimics base R m (g q)) :
    Mimics base R m (Machine.posAdd c (BitVec.ofNat 32 n) >>= g) := by
  obtain ⟨h1, h2⟩ := toNat_posAdd hc n hn
  intro chk s t hi hr
  have e : (Machine.posAdd c (BitVec.ofNat 32 n) >>= g) chk t = g (c + (BitVec.ofNat 32 n).signExtend 64) chk t := by
    show Machine.M.bind (Machine.addSigned _ _) g chk t = _
    simp only [Machine.M.bind, Machine.addSigned]
    rw [if_neg]
    rw [h1]; rw [PAGE_SIZE_eq] at hc
    omega
  rw [e]
  exact h _ h2 chk s t hi hr

/-! Pages -/

theorem Inv.low {s : JitMemory} (ha : Alloc base) (h : Inv base s) {p} (hp : p < 3) :
    (s.pages p).contents + 2 * PAGE_SIZE ≤ 2 ^ 63 + PAGE_SIZE := by
  have h1 := ha.user
  have h2 : PAGE_SIZE * p ≤ PAGE_SIZE * 2 := Nat.mul_le_mul_left _ (Nat.le_of_lt_succ hp)
  rw [h.contents p]
  omega

theorem Mimics.counter {p} (hp : p < 3) {f : Nat → M α} {g : BitVec 64 → Machine.M β}
    (h : ∀ c : BitVec 64, c.toNat ≤ PAGE_SIZE → Mimics base R (f c.toNat) (g c)) :
    Mimics base R (MemPage.counterOf p >>= f) (Machine.MemPage.counterOf p >>= g) := by
  intro chk s t hi hr
  have e : (s.pages p).counter = (t.pages p).counter.toNat := by rw [hr.pages p hp]; rfl
  have := h (t.pages p).counter (by rw [← e]; exact hi.counter p) chk s t hi hr
  rw [← e] at this
  exact this

theorem Mimics.cur {f : Page → M α} {g : Page → Machine.M β} (h : ∀ p, p < 2 → Mimics base R (f p) (g p)) :
    Mimics base R (JitMemory.cur >>= f) (Machine.JitMemory.cur >>= g) := by
  intro chk s t hi hr
  have := h s.page hi.page chk s t hi hr
  show SameOutcome R (f s.page s) (g t.page chk t) ∧ _
  rw [← hr.page]
  exact this

theorem address_ok (ha : Alloc base) {s : JitMemory} {t} (hi : Inv base s) (hr : Represents t s) {p} (hp : p < 3)
    {pos : BitVec 64} (hpos : pos.toNat ≤ 2 * PAGE_SIZE) (chk) :
    ∃ a : BitVec 64, Machine.MemPage.address p pos chk t = .ok a t ∧ a.toNat = (s.pages p).contents + pos.toNat := by
  have e : (s.pages p).contents = (t.pages p).contents.toNat := by rw [hr.pages p hp]; rfl
  have hl := hi.low ha hp
  rw [e] at hl ⊢
  refine ⟨(t.pages p).contents + pos, ?_, ?_⟩
  · simp only [Machine.MemPage.address, Machine.ptrAdd]
    rw [if_neg]
    rw [PAGE_SIZE_eq] at *; omega
  · rw [BitVec.toNat_add]
    rw [PAGE_SIZE_eq] at *; omega

theorem _root_.Spec.Represents.upd {t s} (h : Represents t s) (a : BitVec 64) (v : Byte) :
    Represents { t with mem := Machine.upd t.mem a v } { s with mem := Monoasm.upd s.mem a.toNat v } := by
  refine ⟨h.page, h.pages, h.labels, fun x => ?_⟩
  show Machine.upd t.mem a v x = Monoasm.upd s.mem a.toNat v x.toNat
  simp only [Machine.upd, Monoasm.upd]
  by_cases e : x = a
  · subst e; simp
  · have : x.toNat ≠ a.toNat := fun h => e (BitVec.eq_of_toNat_eq h)
    simp [e, this, h.mem x]

theorem Mimics.write (ha : Alloc base) {p} (hp : p < 3) (pos : BitVec 64) (v : Byte) :
    Mimics base (fun _ _ => pos.toNat < PAGE_SIZE) (MemPage.write p pos.toNat v) (Machine.MemPage.write p pos v) := by
  intro chk s t hi hr
  simp only [MemPage.write, Machine.MemPage.write]
  by_cases h : pos.toNat ≥ PAGE_SIZE
  · rw [if_pos h, if_pos h]
    exact ⟨.panic hr, hi⟩
  · rw [if_neg h, if_neg h]
    obtain ⟨a, h1, h2⟩ := address_ok ha hi hr hp (pos := pos) (by omega) chk
    have e : (Machine.MemPage.address p pos >>= fun a => Machine.M.modify fun t => { t with mem := Machine.upd t.mem a v }) chk t
        = .ok () { t with mem := Machine.upd t.mem a v } := by
      show Machine.M.bind _ _ chk t = _
      simp only [Machine.M.bind, h1]
      rfl
    rw [e, ← h2]
    exact ⟨.ok (by omega) (hr.upd a v), hi.putMem _⟩

theorem _root_.Spec.Represents.updPage {t s} (h : Represents t s) {p} {f g} (hf : p < 3 → f (natPage (t.pages p)) = natPage (g (t.pages p))) :
    Represents (t.updPage p g) (s.updPage p f) := by
  refine ⟨h.page, fun q hq => ?_, h.labels, h.mem⟩
  show (if q = p then f (s.pages q) else s.pages q) = natPage (if q = p then g (t.pages q) else t.pages q)
  by_cases e : q = p
  · subst e; simp only [if_true]; rw [h.pages q hq]; exact hf hq
  · rw [if_neg e, if_neg e]; exact h.pages q hq

theorem Mimics.setCounter {p} {c : Nat} {c' : BitVec 64} (e : c'.toNat = c) (hc : c ≤ PAGE_SIZE) :
    Mimics base (fun _ _ => True) (MemPage.setCounter p c) (Machine.MemPage.setCounter p c') := by
  intro chk s t hi hr
  exact ⟨.ok trivial (hr.updPage fun _ => by subst e; rfl), hi.setCounter hc⟩

theorem Mimics.align (ha : Alloc base) {p} (hp : p < 3) {m : Nat → M Unit} (k : Nat) (hk : k ≤ 12)
    (hm : ∀ p, m p = do let c ← MemPage.counterOf p; MemPage.setCounter p (MemPage.alignUp c (2 ^ k - 1)))
    (w : BitVec 64) (hw : w = BitVec.ofNat 64 (2 ^ k - 1)) :
    Mimics base (fun _ _ => True) (m p) (Machine.MemPage.align p w) := by
  rw [hm]
  refine Mimics.counter hp fun c hc => ?_
  intro chk s t hi hr
  have hk2 : 2 ^ k ≤ 2 ^ 12 := Nat.pow_le_pow_right (by omega) hk
  have e2 : w.toNat = 2 ^ k - 1 := by subst hw; simp only [BitVec.toNat_ofNat]; omega
  have e : (Machine.add c w >>= fun c => Machine.MemPage.setCounter p (c &&& ~~~w)) chk t
      = Machine.MemPage.setCounter p ((c + w) &&& ~~~w) chk t := by
    show Machine.M.bind (Machine.add _ _) _ chk t = _
    simp only [Machine.M.bind, Machine.add]
    rw [if_neg]
    rw [e2]; rw [PAGE_SIZE_eq] at hc; omega
  rw [e]
  have e3 : ((c + w) &&& ~~~w).toNat = MemPage.alignUp c.toNat (2 ^ k - 1) := by
    rw [BitVec.toNat_and, BitVec.toNat_not, BitVec.toNat_add, e2]
    simp only [MemPage.alignUp]
    rw [Nat.mod_eq_of_lt (by rw [PAGE_SIZE_eq] at hc; omega)]
  refine Mimics.setCounter e3 ?_ chk s t hi hr
  exact alignUp_le_page _ k (by omega) hc

/-! Emission -/

theorem Mimics.then {m : M α} {w : Machine.M β} {f : M γ} {g : Machine.M δ} {P : Prop} (hm : Mimics base (fun _ _ => P) m w)
    (hf : P → Mimics base Q f g) : Mimics base Q (m >>= fun _ => f) (w >>= fun _ => g) :=
  Mimics.bind hm fun _ _ h => hf h

theorem Mimics.write_at (ha : Alloc base) {p} (hp : p < 3) {pos : Nat} {c : BitVec 64} (e : c.toNat = pos) (v : Byte) :
    Mimics base (fun _ _ => pos < PAGE_SIZE) (MemPage.write p pos v) (Machine.MemPage.write p c v) := by
  subst e; exact Mimics.write ha hp c v

theorem Mimics.emitb (ha : Alloc base) {p} (hp : p < 3) (v) :
    Mimics base (fun _ _ => True) (MemPage.emitb p v) (Machine.MemPage.emitb p v) := by
  refine Mimics.counter hp fun c hc => Mimics.then (Mimics.write_at ha hp rfl _) fun h => ?_
  exact Mimics.posAdd (n := 1) hc (by omega) fun q hq => Mimics.setCounter hq (by omega)

theorem Mimics.emitw (ha : Alloc base) {p} (hp : p < 3) (v) :
    Mimics base (fun _ _ => True) (MemPage.emitw p v) (Machine.MemPage.emitw p v) := by
  refine Mimics.counter hp fun c hc => Mimics.then (Mimics.write_at ha hp rfl _) fun h => ?_
  refine Mimics.posAdd (n := 1) hc (by omega) fun q hq => Mimics.then (Mimics.write_at ha hp hq _) fun h => ?_
  exact Mimics.posAdd (n := 2) hc (by omega) fun q hq => Mimics.setCounter hq (by omega)

theorem Mimics.write32 (ha : Alloc base) {p} (hp : p < 3) {c : BitVec 64} (hc : c.toNat ≤ PAGE_SIZE) (v) :
    Mimics base (fun _ _ => c.toNat + 3 < PAGE_SIZE) (MemPage.write32 p c.toNat v) (Machine.MemPage.write32 p c v) := by
  refine Mimics.then (Mimics.write_at ha hp rfl _) fun h => ?_
  refine Mimics.posAdd (n := 1) hc (by omega) fun q hq => Mimics.then (Mimics.write_at ha hp hq _) fun h => ?_
  refine Mimics.posAdd (n := 2) hc (by omega) fun q hq => Mimics.then (Mimics.write_at ha hp hq _) fun h => ?_
  exact Mimics.posAdd (n := 3) hc (by omega) fun q hq => Mimics.write_at ha hp hq _

theorem Mimics.write64 (ha : Alloc base) {p} (hp : p < 3) {c : BitVec 64} (hc : c.toNat ≤ PAGE_SIZE) (v) :
    Mimics base (fun _ _ => c.toNat + 7 < PAGE_SIZE) (MemPage.write64 p c.toNat v) (Machine.MemPage.write64 p c v) := by
  refine Mimics.then (Mimics.write_at ha hp rfl _) fun h => ?_
  refine Mimics.posAdd (n := 1) hc (by omega) fun q hq => Mimics.then (Mimics.write_at ha hp hq _) fun h => ?_
  refine Mimics.posAdd (n := 2) hc (by omega) fun q hq => Mimics.then (Mimics.write_at ha hp hq _) fun h => ?_
  refine Mimics.posAdd (n := 3) hc (by omega) fun q hq => Mimics.then (Mimics.write_at ha hp hq _) fun h => ?_
  refine Mimics.posAdd (n := 4) hc (by omega) fun q hq => Mimics.then (Mimics.write_at ha hp hq _) fun h => ?_
  refine Mimics.posAdd (n := 5) hc (by omega) fun q hq => Mimics.then (Mimics.write_at ha hp hq _) fun h => ?_
  refine Mimics.posAdd (n := 6) hc (by omega) fun q hq => Mimics.then (Mimics.write_at ha hp hq _) fun h => ?_
  exact Mimics.posAdd (n := 7) hc (by omega) fun q hq => Mimics.write_at ha hp hq _

theorem Mimics.emitl (ha : Alloc base) {p} (hp : p < 3) (v) :
    Mimics base (fun _ _ => True) (MemPage.emitl p v) (Machine.MemPage.emitl p v) := by
  have e : MemPage.emitl p v = (do
      let c ← MemPage.counterOf p
      MemPage.write32 p c v
      MemPage.setCounter p (c + 4)) := by
    simp only [MemPage.emitl, MemPage.write32, bind_assoc]
  rw [e]
  refine Mimics.counter hp fun c hc => Mimics.then (Mimics.write32 ha hp hc _) fun h => ?_
  exact Mimics.posAdd (n := 4) hc (by omega) fun q hq => Mimics.setCounter hq (by omega)

theorem Mimics.emitq (ha : Alloc base) {p} (hp : p < 3) (v) :
    Mimics base (fun _ _ => True) (MemPage.emitq p v) (Machine.MemPage.emitq p v) :=
  Mimics.then (Mimics.emitl ha hp _) fun _ => Mimics.emitl ha hp _

theorem Mimics.emitZeros (ha : Alloc base) {p} (hp : p < 3) (n) :
    Mimics base (fun _ _ => True) (JitMemory.emitZeros p n) (Machine.JitMemory.emitZeros p n) := by
  induction n with
  | zero => exact Mimics.pure trivial
  | succ n ih => exact Mimics.then (Mimics.emitb ha hp _) fun _ => ih

theorem Mimics.align4 (ha : Alloc base) {p} (hp : p < 3) :
    Mimics base (fun _ _ => True) (MemPage.align4 p) (Machine.MemPage.align p 3) :=
  Mimics.align ha hp (m := MemPage.align4) 2 (by omega) (fun _ => rfl) _ rfl
theorem Mimics.align8 (ha : Alloc base) {p} (hp : p < 3) :
    Mimics base (fun _ _ => True) (MemPage.align8 p) (Machine.MemPage.align p 7) :=
  Mimics.align ha hp (m := MemPage.align8) 3 (by omega) (fun _ => rfl) _ rfl
theorem Mimics.align16 (ha : Alloc base) {p} (hp : p < 3) :
    Mimics base (fun _ _ => True) (MemPage.align16 p) (Machine.MemPage.align p 15) :=
  Mimics.align ha hp (m := MemPage.align16) 4 (by omega) (fun _ => rfl) _ rfl
theorem Mimics.align_page (ha : Alloc base) {p} (hp : p < 3) :
    Mimics base (fun _ _ => True) (MemPage.align_page p) (Machine.MemPage.align p 4095) :=
  Mimics.align ha hp (m := MemPage.align_page) 12 (by omega) (fun _ => rfl) _ rfl

theorem Mimics.checkPage (p) : Mimics base (fun _ _ => p < 3) (checkPage p) (Machine.checkPage p) := by
  intro chk s t hi hr
  simp only [Monoasm.checkPage, Machine.checkPage]
  by_cases h : p < 3
  · rw [if_pos h, if_pos h]; exact ⟨.ok h hr, hi⟩
  · rw [if_neg h, if_neg h]; exact ⟨.panic hr, hi⟩

theorem Mimics.pageCall (ha : Alloc base) {p} (hp : p < 3) (c : PageCall)
    (hc : ∀ pos v, c = .poke pos v → pos < 2 ^ 64) :
    Mimics base (fun _ _ => True) (c.run p) (c.onMachine p) := by
  cases c with
  | align_page => exact Mimics.align_page ha hp
  | align16 => exact Mimics.align16 ha hp
  | align8 => exact Mimics.align8 ha hp
  | align4 => exact Mimics.align4 ha hp
  | emitb v => exact Mimics.emitb ha hp v
  | emitw v => exact Mimics.emitw ha hp v
  | emitl v => exact Mimics.emitl ha hp v
  | emitq v => exact Mimics.emitq ha hp v
  | poke pos v =>
    have h := hc pos v rfl
    intro chk s t hi hr
    obtain ⟨h1, h2⟩ := Mimics.write_at ha hp (pos := pos) (c := BitVec.ofNat 64 pos)
      (by rw [BitVec.toNat_ofNat]; exact Nat.mod_eq_of_lt h) v chk s t hi hr
    refine ⟨?_, h2⟩
    show SameOutcome _ (MemPage.write p pos v s) (Machine.MemPage.write p (BitVec.ofNat 64 pos) v chk t)
    revert h1
    generalize MemPage.write p pos v s = x
    generalize Machine.MemPage.write p (BitVec.ofNat 64 pos) v chk t = y
    intro h1
    cases h1 with
    | ok _ h => exact .ok trivial h
    | panic h => exact .panic h

/-! Labels -/

theorem Mimics.of_safe {m : M α} {w : Machine.M β} (hs : Safe base False (fun _ => True) m)
    (h : ∀ chk s t, Inv base s → Represents t s → SameOutcome R (m s) (w chk t)) : Mimics base R m w :=
  fun chk s t hi hr => ⟨h chk s t hi hr, (hs s hi trivial).1.inv⟩

theorem map_modify {f : Machine.LabelInfo → Machine.LabelInfo} {g : LabelInfo → LabelInfo} (h : ∀ i, g (natLabel i) = natLabel (f i))
    (ls : List Machine.LabelInfo) (l : Nat) : (ls.map natLabel).modify l g = (ls.modify l f).map natLabel := by
  induction ls generalizing l with
  | nil => cases l <;> rfl
  | cons i is ih =>
    cases l with
    | zero => simp [List.modify_zero_cons, h]
    | succ l => simp [List.modify_succ_cons, ih]

theorem modifyLabel_agrees {t s} (hr : Represents t s) {f : Machine.LabelInfo → Machine.LabelInfo} {g : LabelInfo → LabelInfo}
    (h : ∀ i, g (natLabel i) = natLabel (f i)) (l chk) :
    SameOutcome (fun _ _ => True) (JitMemory.modifyLabel l g s) (Machine.JitMemory.modifyLabel l f chk t) := by
  simp only [JitMemory.modifyLabel, Machine.JitMemory.modifyLabel]
  have e : s.labels.length = t.labels.length := by rw [hr.labels, List.length_map]
  rw [e]
  by_cases hl : l < t.labels.length
  · rw [if_pos hl, if_pos hl]
    refine .ok trivial ⟨hr.page, hr.pages, ?_, hr.mem⟩
    show s.labels.modify l g = (t.labels.modify l f).map natLabel
    rw [hr.labels, map_modify h]
  · rw [if_neg hl, if_neg hl]; exact .panic hr

theorem Mimics.modifyLabel {f : Machine.LabelInfo → Machine.LabelInfo} {g : LabelInfo → LabelInfo} {l}
    (h : ∀ i, g (natLabel i) = natLabel (f i))
    (hs : Safe base False (fun _ => True) (JitMemory.modifyLabel l g)) :
    Mimics base (fun _ _ => True) (JitMemory.modifyLabel l g) (Machine.JitMemory.modifyLabel l f) :=
  Mimics.of_safe hs fun chk s t hi hr => modifyLabel_agrees hr h l chk

theorem Mimics.bindAt {p} (hp : p < 3) (l) : Mimics base (fun _ _ => True)
    (do let c ← MemPage.counterOf p; JitMemory.modifyLabel l fun i => { i with loc := some (p, c) })
    (do let c ← Machine.MemPage.counterOf p; Machine.JitMemory.modifyLabel l fun i => { i with loc := some (p, c) }) :=
  Mimics.counter hp fun c hc => Mimics.modifyLabel (fun _ => rfl) (safe_modifyLabel
    (fun i p' c' h' => by
      simp only [Option.some.injEq, Prod.mk.injEq] at h'
      right; rw [← h'.1, ← h'.2]; exact ⟨hp, hc⟩)
    (fun i t ht => .inl ht))

theorem Mimics.bind_label (l) : Mimics base (fun _ _ => True) (JitMemory.bind_label l) (Machine.JitMemory.bind_label l) :=
  Mimics.cur fun p hp => Mimics.bindAt (Nat.lt_succ_of_lt hp) l

theorem Mimics.bind_label_with_page (p l) :
    Mimics base (fun _ _ => True) (JitMemory.bind_label_with_page p l) (Machine.JitMemory.bind_label_with_page p l) :=
  Mimics.then (Mimics.checkPage p) fun hp => Mimics.bindAt hp l

theorem Mimics.saveAt {p} (hp : p < 3) (l) {x : Nat → TargetType} {y : BitVec 64 → Machine.TargetType}
    (h : ∀ c, natTarget (y c) = x c.toNat) (h2 : ∀ c, (x c).page = p ∧ (x c).pos = c) : Mimics base (fun _ _ => True)
    (do let c ← MemPage.counterOf p; JitMemory.modifyLabel l fun i => { i with target := i.target ++ [x c] })
    (do let c ← Machine.MemPage.counterOf p; Machine.JitMemory.modifyLabel l fun i => { i with target := i.target ++ [y c] }) :=
  Mimics.counter hp fun c hc => Mimics.modifyLabel (fun i => by
      simp only [natLabel, List.map_append, List.map_cons, List.map_nil, h]) (safe_modifyLabel
    (fun i p' c' h' => .inl h')
    (fun i t ht => by
      simp only [List.mem_append, List.mem_singleton] at ht
      rcases ht with h' | rfl
      · exact .inl h'
      · right; rw [(h2 _).1, (h2 _).2]; exact ⟨hp, hc⟩))

theorem Mimics.save_reloc (l off) :
    Mimics base (fun _ _ => True) (JitMemory.save_reloc l off) (Machine.JitMemory.save_reloc l off) :=
  Mimics.cur fun p hp => Mimics.saveAt (x := fun c => .rel p off c) (y := fun c => .rel p off c) (Nat.lt_succ_of_lt hp) l
    (fun _ => rfl) fun _ => ⟨rfl, rfl⟩

theorem Mimics.save_absolute_reloc {p} (hp : p < 3) (l) :
    Mimics base (fun _ _ => True) (JitMemory.save_absolute_reloc p l) (Machine.JitMemory.save_absolute_reloc p l) :=
  Mimics.saveAt (x := fun c => .abs p c) (y := fun c => .abs p c) hp l (fun _ => rfl) fun _ => ⟨rfl, rfl⟩

theorem Mimics.label : Mimics base Eq JitMemory.label Machine.JitMemory.label :=
  Mimics.of_safe safe_label fun chk s t hi hr => by
    refine .ok ?_ ⟨hr.page, hr.pages, ?_, hr.mem⟩
    · rw [hr.labels, List.length_map]
    · show s.labels ++ [LabelInfo.new] = (t.labels ++ [(⟨none, []⟩ : Machine.LabelInfo)]).map natLabel
      rw [hr.labels, List.map_append]; rfl

theorem Mimics.pushConstant (d l) :
    Mimics base (fun _ _ => True) (JitMemory.pushConstant d l) (Machine.JitMemory.pushConstant d l) :=
  Mimics.of_safe (safe_pushConstant d l) fun chk s t hi hr => by
    refine .ok trivial ?_
    show Represents (t.updPage t.page _) (s.updPage s.page _)
    rw [hr.page]
    exact hr.updPage fun _ => rfl

theorem Mimics.pushData (d l) :
    Mimics base (fun _ _ => True) (JitMemory.pushData d l) (Machine.JitMemory.pushData d l) :=
  Mimics.of_safe (safe_pushData d l) fun chk s t hi hr => by
    refine .ok trivial ?_
    show Represents (t.updPage t.page _) (s.updPage s.page _)
    rw [hr.page]
    exact hr.updPage fun _ => rfl

theorem Mimics.item (ha : Alloc base) (it : Item) : Mimics base (fun _ _ => True) it.run it.onMachine := by
  cases it with
  | i8 v => exact Mimics.cur fun p hp => Mimics.emitb ha (Nat.lt_succ_of_lt hp) v
  | i16 v => exact Mimics.cur fun p hp => Mimics.emitw ha (Nat.lt_succ_of_lt hp) v
  | i32 v => exact Mimics.cur fun p hp => Mimics.emitl ha (Nat.lt_succ_of_lt hp) v
  | i64 v => exact Mimics.cur fun p hp => Mimics.emitq ha (Nat.lt_succ_of_lt hp) v
  | rel l off => exact Mimics.then (Mimics.save_reloc l off) fun _ => Mimics.cur fun p hp => Mimics.emitl ha (Nat.lt_succ_of_lt hp) 0
  | bind l => exact Mimics.bind_label l
  | fail e => exact Mimics.panic

theorem Mimics.items (ha : Alloc base) (its : List Item) : Mimics base (fun _ _ => True) (runItems its) (itemsOnMachine its) := by
  induction its with
  | nil => exact Mimics.pure trivial
  | cons i is ih => exact Mimics.then (Mimics.item ha i) fun _ => ih

/-! `finalize` -/

theorem Mimics.resolveOne (ha : Alloc base) {p} (hp : p < 3) (d l) :
    Mimics base (fun _ _ => True) (JitMemory.resolveOne p d l) (Machine.JitMemory.resolveOne p d l) := by
  cases d with
  | u64 v => exact Mimics.then (Mimics.align16 ha hp) fun _ => Mimics.then (Mimics.bind_label_with_page p l) fun _ => Mimics.emitq ha hp v
  | u32 v => exact Mimics.then (Mimics.align4 ha hp) fun _ => Mimics.then (Mimics.bind_label_with_page p l) fun _ => Mimics.emitl ha hp v
  | bytes n => exact Mimics.then (Mimics.align16 ha hp) fun _ => Mimics.then (Mimics.bind_label_with_page p l) fun _ => Mimics.emitZeros ha hp n
  | absAddress x =>
    exact Mimics.then (Mimics.align8 ha hp) fun _ => Mimics.then (Mimics.bind_label_with_page p l) fun _ =>
      Mimics.then (Mimics.save_absolute_reloc hp x) fun _ => Mimics.emitq ha hp 0
  | align8 => exact Mimics.then (Mimics.align8 ha hp) fun _ => Mimics.bind_label_with_page p l

theorem Mimics.resolveList (ha : Alloc base) {p} (hp : p < 3) (cs) :
    Mimics base (fun _ _ => True) (JitMemory.resolveList p cs) (Machine.JitMemory.resolveList p cs) := by
  induction cs with
  | nil => exact Mimics.pure trivial
  | cons c cs ih => exact Mimics.then (Mimics.resolveOne ha hp c.1 c.2) fun _ => ih

theorem Mimics.updPage {p} {f : MemPage → MemPage} {g : Machine.MemPage → Machine.MemPage}
    (h : ∀ pg, f (natPage pg) = natPage (g pg))
    (hf : ∀ pg : MemPage, (f pg).contents = pg.contents ∧ (f pg).counter = pg.counter) :
    Mimics base (fun _ _ => True) (M.modify fun s => s.updPage p f) (Machine.M.modify fun t => t.updPage p g) :=
  fun chk s t hi hr => ⟨.ok trivial (hr.updPage fun _ => h _), hi.updPage hf⟩

theorem Mimics.get {f : JitMemory → M α} {g : Machine.JitMemory → Machine.M β}
    (h : ∀ s t, Inv base s → Represents t s → Mimics base R (f s) (g t)) : Mimics base R (M.get >>= f) (Machine.M.get >>= g) :=
  fun chk s t hi hr => h s t hi hr chk s t hi hr

theorem Mimics.resolveConstantsOf (ha : Alloc base) {p} (hp : p < 3) :
    Mimics base (fun _ _ => True) (JitMemory.resolveConstantsOf p) (Machine.JitMemory.resolveConstantsOf p) := by
  refine Mimics.get fun s t hi hr => ?_
  have e : (s.pages p).constants = (t.pages p).constants := by rw [hr.pages p hp]; rfl
  refine Mimics.then (P := True) (Mimics.updPage (fun _ => rfl) fun _ => ⟨rfl, rfl⟩) fun _ => ?_
  show Mimics base _ (JitMemory.resolveList p (s.pages p).constants) _
  rw [e]
  exact Mimics.resolveList ha hp _

theorem Mimics.resolveDataOf (ha : Alloc base) {p} (hp : p < 3) :
    Mimics base (fun _ _ => True) (JitMemory.resolveDataOf p) (Machine.JitMemory.resolveDataOf p) := by
  refine Mimics.get fun s t hi hr => ?_
  have e : (s.pages p).data = (t.pages p).data := by rw [hr.pages p hp]; rfl
  refine Mimics.then (P := True) (Mimics.updPage (fun _ => rfl) fun _ => ⟨rfl, rfl⟩) fun _ => ?_
  show Mimics base _ (JitMemory.resolveList DATA_PAGE (s.pages p).data) _
  rw [e]
  exact Mimics.resolveList ha (by decide) _

theorem Mimics.forPages {f : MemPage → MemPage} {g : Machine.MemPage → Machine.MemPage}
    (h : ∀ pg, f (natPage pg) = natPage (g pg))
    (hf : ∀ pg : MemPage, (f pg).contents = pg.contents ∧ (f pg).counter = pg.counter) :
    Mimics base (fun _ _ => True) (JitMemory.forPages f) (Machine.JitMemory.forPages g) :=
  Mimics.of_safe (safe_forPages (fun _ => trivial) hf) fun chk s t hi hr => by
    refine .ok trivial ⟨hr.page, fun p hp => ?_, hr.labels, hr.mem⟩
    show (if p < 3 then f (s.pages p) else s.pages p) = natPage (if p < 3 then g (t.pages p) else t.pages p)
    rw [if_pos hp, if_pos hp, hr.pages p hp, h]

theorem toNat_add_page (ha : Alloc base) {s : JitMemory} {t} (hi : Inv base s) (hr : Represents t s) {p} (hp : p < 3)
    {pos : BitVec 64} (hpos : pos.toNat ≤ 2 * PAGE_SIZE) :
    ((t.pages p).contents + pos).toNat = (s.pages p).contents + pos.toNat
    ∧ (t.pages p).contents.toNat + pos.toNat = (s.pages p).contents + pos.toNat
    ∧ (s.pages p).contents + pos.toNat < 2 ^ 64 - 256 := by
  have e : (s.pages p).contents = (t.pages p).contents.toNat := by rw [hr.pages p hp]; rfl
  have hl := hi.low ha hp
  rw [e] at hl ⊢
  have hP := PAGE_SIZE_eq
  generalize PAGE_SIZE = P at *
  refine ⟨?_, rfl, by omega⟩
  rw [BitVec.toNat_add]
  omega

theorem Mimics.add {m : M α} {a b : BitVec 64} {g : BitVec 64 → Machine.M β} (h : a.toNat + b.toNat < 2 ^ 64)
    (hm : Mimics base R m (g (a + b))) : Mimics base R m (Machine.add a b >>= g) := by
  intro chk s t hi hr
  have e : (Machine.add a b >>= g) chk t = g (a + b) chk t := by
    show Machine.M.bind (Machine.add _ _) g chk t = _
    simp only [Machine.M.bind, Machine.add]
    rw [if_neg]; omega
  rw [e]
  exact hm chk s t hi hr

theorem Mimics.weaken {Q : α → β → Prop} {m : M α} {w : Machine.M β} (h : Mimics base R m w) (hR : ∀ a b, R a b → Q a b) :
    Mimics base Q m w := by
  intro chk s t hi hr
  obtain ⟨h1, h2⟩ := h chk s t hi hr
  refine ⟨?_, h2⟩
  revert h1
  generalize m s = x
  generalize w chk t = y
  intro h1
  cases h1 with
  | ok a b => exact .ok (hR _ _ a) b
  | panic b => exact .panic b

theorem Mimics.fillTarget (ha : Alloc base) (src : BitVec 64) (x : Machine.TargetType)
    (hx : (natTarget x).page < 3 ∧ (natTarget x).pos ≤ PAGE_SIZE) :
    Mimics base (fun _ _ => True) (JitMemory.fillTarget src.toNat (natTarget x)) (Machine.JitMemory.fillTarget src x) := by
  cases x with
  | rel p off pos =>
    have hp : p < 3 := hx.1
    have hpos : pos.toNat ≤ PAGE_SIZE := hx.2
    refine Mimics.get fun s t hi hr => ?_
    obtain ⟨h1, h2, h3⟩ := toNat_add_page ha hi hr hp (pos := pos) (by omega)
    have ho : (off.setWidth 64).toNat = off.toNat := by
      rw [BitVec.toNat_setWidth]; exact Nat.mod_eq_of_lt (by have := off.isLt; omega)
    have hlt := off.isLt
    refine Mimics.add (by omega) (Mimics.add (by rw [h1, ho]; omega) ?_)
    have e : ((t.pages p).contents + pos + off.setWidth 64).toNat = (s.pages p).contents + pos.toNat + off.toNat := by
      rw [BitVec.toNat_add, h1, ho]; omega
    rw [e]
    show Mimics base _ (match JitMemory.i32TryFromInt ((src.toNat : Int) - (((s.pages p).contents + pos.toNat + off.toNat : Nat) : Int)) with
      | some d => MemPage.write32 p pos.toNat d
      | none => M.panic .relocOverflow)
      (match JitMemory.i32TryFromInt ((src.toNat : Int) - (((s.pages p).contents + pos.toNat + off.toNat : Nat) : Int)) with
      | some d => Machine.MemPage.write32 p pos d
      | none => Machine.M.panic .relocOverflow)
    cases JitMemory.i32TryFromInt ((src.toNat : Int) - (((s.pages p).contents + pos.toNat + off.toNat : Nat) : Int)) with
    | some d => exact (Mimics.write32 ha hp hpos d).weaken fun _ _ _ => trivial
    | none => exact Mimics.panic
  | abs p pos =>
    have e : BitVec.ofNat 64 src.toNat = src := BitVec.ofNat_toNat ..
    show Mimics base _ (MemPage.write64 p pos.toNat (BitVec.ofNat 64 src.toNat)) (Machine.MemPage.write64 p pos src)
    rw [e]
    exact (Mimics.write64 ha hx.1 hx.2 src).weaken fun _ _ _ => trivial

theorem Mimics.fillTargets (ha : Alloc base) (src : BitVec 64) (xs : List Machine.TargetType)
    (hx : ∀ x ∈ xs.map natTarget, x.page < 3 ∧ x.pos ≤ PAGE_SIZE) :
    Mimics base (fun _ _ => True) (JitMemory.fillTargets src.toNat (xs.map natTarget)) (Machine.JitMemory.fillTargets src xs) := by
  induction xs with
  | nil => exact Mimics.pure trivial
  | cons x xs ih =>
    exact Mimics.then (Mimics.fillTarget ha src x (hx _ (by simp))) fun _ => ih fun y hy => hx y (by
      simp only [List.map_cons, List.mem_cons]; exact .inr hy)

theorem Mimics.fillLabel (ha : Alloc base) (i : Machine.LabelInfo) (hi : InfoOk (natLabel i)) :
    Mimics base (fun a b => a = natLabel b ∧ InfoOk a) (JitMemory.fillLabel (natLabel i)) (Machine.JitMemory.fillLabel i) := by
  obtain ⟨loc, tg⟩ := i
  cases loc with
  | none => exact Mimics.pure ⟨rfl, hi⟩
  | some l =>
    obtain ⟨p, pos⟩ := l
    have h1 := hi.1 p pos.toNat rfl
    show Mimics base _ (do
        let s ← M.get
        JitMemory.fillTargets ((s.pages p).contents + pos.toNat) (tg.map natTarget)
        Pure.pure { natLabel ⟨some (p, pos), tg⟩ with target := [] }) (do
        let t ← Machine.M.get
        let src_ptr ← Machine.add (t.pages p).contents pos
        Machine.JitMemory.fillTargets src_ptr tg
        Pure.pure ({ loc := some (p, pos), target := [] } : Machine.LabelInfo))
    refine Mimics.get fun s t hs hr => ?_
    obtain ⟨h2, h3, h4⟩ := toNat_add_page ha hs hr h1.1 (pos := pos) (by omega)
    refine Mimics.add (by omega) ?_
    rw [← h2]
    exact Mimics.then (Mimics.fillTargets ha _ tg hi.2) fun _ => Mimics.pure ⟨rfl, hi.1, by simp⟩

theorem Mimics.fillLabels (ha : Alloc base) (is : List Machine.LabelInfo) (hi : ∀ i ∈ is.map natLabel, InfoOk i) :
    Mimics base (fun a b => a = b.map natLabel ∧ ∀ i ∈ a, InfoOk i) (JitMemory.fillLabels (is.map natLabel)) (Machine.JitMemory.fillLabels is) := by
  induction is with
  | nil => exact Mimics.pure ⟨rfl, by simp⟩
  | cons i is ih =>
    refine Mimics.bind (Mimics.fillLabel ha i (hi _ (by simp))) fun a b hab => ?_
    refine Mimics.bind (ih fun y hy => hi y (by simp only [List.map_cons, List.mem_cons]; exact .inr hy)) fun as bs hs => ?_
    refine Mimics.pure ⟨by rw [hab.1, hs.1]; rfl, fun j hj => ?_⟩
    rcases List.mem_cons.1 hj with h | h
    · rw [h]; exact hab.2
    · exact hs.2 j h

theorem Mimics.setLabels {ls : List LabelInfo} {ms : List Machine.LabelInfo} (h : ls = ms.map natLabel) (hl : ∀ i ∈ ls, InfoOk i) :
    Mimics base (fun _ _ => True) (M.modify fun s => { s with labels := ls }) (Machine.M.modify fun t => { t with labels := ms }) :=
  fun chk s t hi hr => ⟨.ok trivial ⟨hr.page, hr.pages, h, hr.mem⟩, hi.setLabels hl⟩

theorem Mimics.fill_relocs (ha : Alloc base) :
    Mimics base (fun _ _ => True) JitMemory.fill_relocs Machine.JitMemory.fill_relocs := by
  refine Mimics.get fun s t hi hr => ?_
  refine Mimics.then (P := True) (Mimics.setLabels rfl (by simp)) fun _ => ?_
  have hok := infoOk_of_inv hi
  show Mimics base _ (JitMemory.fillLabels s.labels >>= _) (Machine.JitMemory.fillLabels t.labels >>= _)
  rw [hr.labels] at hok ⊢
  exact Mimics.bind (Mimics.fillLabels ha _ hok) fun a b hab => Mimics.setLabels hab.1 hab.2

theorem natPage_close (pg : Machine.MemPage) :
    JitMemory.closeBlock (natPage pg) = natPage (Machine.JitMemory.closeBlock pg) := by
  simp only [JitMemory.closeBlock, Machine.JitMemory.closeBlock, natPage, List.length_map, MemPage.mk.injEq, true_and]
  generalize pg.code_block.length - 1 = n
  generalize pg.code_block = bs
  induction bs generalizing n with
  | nil => cases n <;> rfl
  | cons b bs ih =>
    cases n with
    | zero => simp [List.modify_zero_cons]
    | succ n => simp [List.modify_succ_cons, ih]

theorem Mimics.finalize (ha : Alloc base) : Mimics base (fun _ _ => True) JitMemory.finalize Machine.JitMemory.finalize := by
  have e : JitMemory.finalize = (do
      JitMemory.forPages JitMemory.openBlock
      JitMemory.resolveConstantsOf 0
      JitMemory.resolveConstantsOf 1
      JitMemory.resolveDataOf 0
      JitMemory.resolveDataOf 1
      JitMemory.forPages JitMemory.closeBlock
      JitMemory.fill_relocs
      JitMemory.forPages JitMemory.topBlock) := by
    simp only [JitMemory.finalize, JitMemory.resolve_constants, JitMemory.resolve_data, bind_assoc]
  rw [e]
  refine Mimics.then (P := True) (Mimics.forPages (fun pg => ?_) fun _ => ⟨rfl, rfl⟩) fun _ => ?_
  · simp [JitMemory.openBlock, Machine.JitMemory.openBlock, natPage]
  refine Mimics.then (Mimics.resolveConstantsOf ha (by decide)) fun _ => ?_
  refine Mimics.then (Mimics.resolveConstantsOf ha (by decide)) fun _ => ?_
  refine Mimics.then (Mimics.resolveDataOf ha (by decide)) fun _ => ?_
  refine Mimics.then (Mimics.resolveDataOf ha (by decide)) fun _ => ?_
  refine Mimics.then (P := True) (Mimics.forPages natPage_close fun _ => ⟨rfl, rfl⟩) fun _ => ?_
  refine Mimics.then (Mimics.fill_relocs ha) fun _ => ?_
  exact Mimics.forPages (fun _ => rfl) fun _ => ⟨rfl, rfl⟩

/-! Addresses and patches -/

theorem Mimics.get_label_pos (l) :
    Mimics base (fun a b => a = (b.1, b.2.toNat) ∧ b.1 < 3 ∧ b.2.toNat ≤ PAGE_SIZE) (JitMemory.get_label_pos l)
      (Machine.JitMemory.get_label_pos l) := by
  refine Mimics.bind (R := fun a b => a = natLabel b ∧ InfoOk a) ?_ fun a b hab => ?_
  · intro chk s t hi hr
    simp only [JitMemory.labelInfo, Machine.JitMemory.labelInfo]
    have e : s.labels[l]? = (t.labels[l]?).map natLabel := by rw [hr.labels, List.getElem?_map]
    rw [e]
    cases h : t.labels[l]? with
    | none => exact ⟨.panic hr, hi⟩
    | some i =>
      have hi' : s.labels[l]? = some (natLabel i) := by rw [e, h]; rfl
      exact ⟨.ok ⟨rfl, hi.loc l _ hi', hi.tgt l _ hi'⟩ hr, hi⟩
  · obtain ⟨rfl, hok⟩ := hab
    obtain ⟨loc, tg⟩ := b
    cases loc with
    | none => exact Mimics.panic
    | some x => exact Mimics.pure ⟨rfl, hok.1 x.1 x.2.toNat rfl⟩

theorem Mimics.address (ha : Alloc base) {m : Nat → M α} {g : BitVec 64 → Machine.M β} {p} (hp : p < 3) {pos : BitVec 64}
    (hpos : pos.toNat ≤ PAGE_SIZE)
    (h : ∀ a : BitVec 64, base ≤ a.toNat → a.toNat ≤ base + 3 * PAGE_SIZE → Mimics base R (m a.toNat) (g a)) :
    Mimics base R (M.get >>= fun s => m ((s.pages p).contents + pos.toNat)) (Machine.MemPage.address p pos >>= g) := by
  intro chk s t hi hr
  obtain ⟨a, h1, h2⟩ := address_ok ha hi hr hp (pos := pos) (by omega) chk
  have e : (Machine.MemPage.address p pos >>= g) chk t = g a chk t := by
    show Machine.M.bind _ g chk t = _
    simp only [Machine.M.bind, h1]
  have e2 : (M.get >>= fun s => m ((s.pages p).contents + pos.toNat)) s = m a.toNat s := by
    show m ((s.pages p).contents + pos.toNat) s = _
    rw [h2]
  rw [e, e2]
  have hd := page_mul hp
  have hc := hi.contents p
  exact h a (by omega) (by omega) chk s t hi hr

theorem Mimics.codePtrFrom {a : BitVec 64} (h : 0 < a.toNat) : Mimics base (fun x y => x = y.toNat ∧ y = a) (JitMemory.codePtrFrom a.toNat) (Machine.JitMemory.codePtrFrom a) := by
  have h1 : ¬ a.toNat = 0 := by omega
  have h2 : ¬ a = 0 := fun e => h1 (by rw [e]; rfl)
  simp only [JitMemory.codePtrFrom, Machine.JitMemory.codePtrFrom, if_neg h1, if_neg h2]
  exact Mimics.pure ⟨rfl, rfl⟩

/-- The result is an address of the three pages. -/
def AddrRel (base : Nat) (a : Nat) (b : BitVec 64) : Prop := a = b.toNat ∧ base ≤ a ∧ a ≤ base + 3 * PAGE_SIZE

theorem Mimics.get_label_address (ha : Alloc base) (l) :
    Mimics base (AddrRel base) (JitMemory.get_label_address l) (Machine.JitMemory.get_label_address l) := by
  refine Mimics.bind (Mimics.get_label_pos l) fun a b ⟨h1, h2, h3⟩ => ?_
  subst h1
  have hb := ha.pos
  exact Mimics.address (m := JitMemory.codePtrFrom) ha h2 h3 fun a h4 h5 =>
    (Mimics.codePtrFrom (by omega)).weaken fun x y ⟨e1, e2⟩ => by subst e2; exact ⟨e1, by omega, by omega⟩

theorem Mimics.get_label_u64 (ha : Alloc base) (l) :
    Mimics base (AddrRel base) (JitMemory.get_label_u64 l) (Machine.JitMemory.get_label_u64 l) := by
  refine Mimics.bind (Mimics.get_label_pos l) fun a b ⟨h1, h2, h3⟩ => ?_
  subst h1
  have := Mimics.address (base := base) (R := AddrRel base) (m := fun a => Pure.pure a) (g := fun a => Pure.pure a) ha h2 h3 fun a h4 h5 =>
    Mimics.pure ⟨rfl, h4, h5⟩
  have e : (Machine.MemPage.address b.1 b.2 >>= fun a => Pure.pure a) = Machine.MemPage.address b.1 b.2 := by
    funext chk t
    show Machine.M.bind _ _ chk t = _
    simp only [Machine.M.bind]
    cases Machine.MemPage.address b.1 b.2 chk t <;> rfl
  rw [e] at this
  exact this

theorem Mimics.get_current_address (ha : Alloc base) :
    Mimics base (AddrRel base) JitMemory.get_current_address Machine.JitMemory.get_current_address := by
  have hb := ha.pos
  have e : JitMemory.get_current_address = (do
      let p ← JitMemory.cur
      let c ← MemPage.counterOf p
      let s ← M.get
      JitMemory.codePtrFrom ((s.pages p).contents + c)) := rfl
  rw [e]
  refine Mimics.cur fun p hp => Mimics.counter (Nat.lt_succ_of_lt hp) fun c hc => ?_
  exact Mimics.address (m := JitMemory.codePtrFrom) ha (Nat.lt_succ_of_lt hp) hc fun a h4 h5 =>
    (Mimics.codePtrFrom (by omega)).weaken fun x y ⟨e1, e2⟩ => by subst e2; exact ⟨e1, by omega, by omega⟩

theorem Mimics.includes (ha : Alloc base) (ptr : BitVec 64) :
    Mimics base Eq (fun s => .ok (JitMemory.includes s ptr.toNat) s) (Machine.JitMemory.includes ptr) := by
  intro chk s t hi hr
  have hP := PAGE_SIZE_eq
  have e0 : (BitVec.ofNat 64 (PAGE_SIZE * 2)).toNat = PAGE_SIZE * 2 := by
    rw [BitVec.toNat_ofNat]; exact Nat.mod_eq_of_lt (by omega)
  have hp : s.page < 3 := Nat.lt_succ_of_lt hi.page
  obtain ⟨a, h1, h2⟩ := address_ok ha hi hr hp (pos := BitVec.ofNat 64 (PAGE_SIZE * 2)) (by omega) chk
  have e : Machine.JitMemory.includes ptr chk t
      = .ok (decide ((t.pages t.page).contents.toNat ≤ ptr.toNat) && decide (ptr.toNat < a.toNat)) t := by
    rw [hr.page] at h1
    rw [Machine.JitMemory.includes, machine_bind (a := t) (t' := t) rfl, machine_bind h1]
    simp only [Pure.pure, Machine.M.pure]
  rw [e]
  refine ⟨.ok ?_ hr, hi⟩
  rw [h2, e0, JitMemory.includes]
  have e3 : (s.pages s.page).contents = (t.pages t.page).contents.toNat := by
    rw [hr.pages _ hp, hr.page]; rfl
  rw [e3]

theorem patch_ok {s : JitMemory} {t} (hr : Represents t s) (chk) {pp dest : BitVec 64} (h1 : pp.toNat < 2 ^ 63)
    (h2 : 5 ≤ dest.toNat) (h3 : dest.toNat < 2 ^ 63) :
    ∃ t', (do
      let d ← Machine.subSigned dest pp
      let offset ← Machine.subSigned d 5
      let v : BitVec 32 := offset.setWidth 32
      let a ← Machine.ptrAdd pp 1
      Machine.JitMemory.rawWrite a (v.setWidth 8)
      Machine.JitMemory.rawWrite (← Machine.ptrAdd a 1) ((v >>> 8).setWidth 8)
      Machine.JitMemory.rawWrite (← Machine.ptrAdd a 2) ((v >>> 16).setWidth 8)
      Machine.JitMemory.rawWrite (← Machine.ptrAdd a 3) ((v >>> 24).setWidth 8)) chk t = .ok () t'
    ∧ ∃ s', JitMemory.rawWrite4 (pp.toNat + 1) ((BitVec.ofNat 64 dest.toNat - BitVec.ofNat 64 pp.toNat - 5).setWidth 32) s = .ok () s'
    ∧ Represents t' s' ∧ ∃ mem, s' = { s with mem := mem } := by
  rw [BitVec.ofNat_toNat, BitVec.ofNat_toNat, BitVec.setWidth_eq, BitVec.setWidth_eq]
  have e1 : dest.toInt = dest.toNat := BitVec.toInt_eq_toNat_of_lt (by omega)
  have e2 : pp.toInt = pp.toNat := BitVec.toInt_eq_toNat_of_lt (by omega)
  have e3 : (dest - pp).toInt = (dest.toNat : Int) - pp.toNat := by
    rw [BitVec.toInt_sub, e1, e2]
    rw [Int.bmod_eq_of_le] <;> omega
  have e4 : (5 : BitVec 64).toInt = 5 := rfl
  have a1 : (pp + 1).toNat = pp.toNat + 1 := by
    rw [BitVec.toNat_add]; show (pp.toNat + 1) % _ = _; omega
  have a2 : (pp + 1 + 1).toNat = pp.toNat + 1 + 1 := by
    rw [BitVec.toNat_add, a1]; show (pp.toNat + 1 + 1) % _ = _; omega
  have a3 : (pp + 1 + 2).toNat = pp.toNat + 1 + 2 := by
    rw [BitVec.toNat_add, a1]; show (pp.toNat + 1 + 2) % _ = _; omega
  have a4 : (pp + 1 + 3).toNat = pp.toNat + 1 + 3 := by
    rw [BitVec.toNat_add, a1]; show (pp.toNat + 1 + 3) % _ = _; omega
  have s1 : ∀ t, Machine.subSigned dest pp chk t = .ok (dest - pp) t := fun t => by
    simp only [Machine.subSigned]; rw [if_neg]; rw [e1, e2]; omega
  have s2 : ∀ t, Machine.subSigned (dest - pp) 5 chk t = .ok (dest - pp - 5) t := fun t => by
    simp only [Machine.subSigned]; rw [if_neg]; rw [e3, e4]; omega
  have p1 : ∀ t, Machine.ptrAdd pp 1 chk t = .ok (pp + 1) t := fun t => by
    simp only [Machine.ptrAdd]; rw [if_neg]; show ¬ 2 ^ 64 ≤ pp.toNat + 1; omega
  have p2 : ∀ t, Machine.ptrAdd (pp + 1) 1 chk t = .ok (pp + 1 + 1) t := fun t => by
    simp only [Machine.ptrAdd]; rw [if_neg]; rw [a1]; show ¬ 2 ^ 64 ≤ pp.toNat + 1 + 1; omega
  have p3 : ∀ t, Machine.ptrAdd (pp + 1) 2 chk t = .ok (pp + 1 + 2) t := fun t => by
    simp only [Machine.ptrAdd]; rw [if_neg]; rw [a1]; show ¬ 2 ^ 64 ≤ pp.toNat + 1 + 2; omega
  have p4 : ∀ t, Machine.ptrAdd (pp + 1) 3 chk t = .ok (pp + 1 + 3) t := fun t => by
    simp only [Machine.ptrAdd]; rw [if_neg]; rw [a1]; show ¬ 2 ^ 64 ≤ pp.toNat + 1 + 3; omega
  simp only [bind, Machine.M.bind, s1, s2, p1, p2, p3, p4, Machine.JitMemory.rawWrite, Machine.M.modify]
  refine ⟨_, rfl, _, rfl, ?_, _, rfl⟩
  have := (((hr.upd (pp + 1) (((dest - pp - 5).setWidth 32).setWidth 8)).upd (pp + 1 + 1) ((((dest - pp - 5).setWidth 32) >>> 8).setWidth 8)).upd
    (pp + 1 + 2) ((((dest - pp - 5).setWidth 32) >>> 16).setWidth 8)).upd (pp + 1 + 3) ((((dest - pp - 5).setWidth 32) >>> 24).setWidth 8)
  rw [a1, a2, a3, a4] at this
  exact this

theorem Mimics.patch_address (ha : Alloc base) (hb : base + 3 * PAGE_SIZE < 2 ^ 63) {pp : BitVec 64} (hp : pp.toNat < 2 ^ 63) (l) :
    Mimics base (fun _ _ => True) (JitMemory.apply_jmp_patch_address pp.toNat l) (Machine.JitMemory.apply_jmp_patch_address pp l) := by
  refine Mimics.bind (Mimics.get_label_address ha l) fun a b ⟨h1, h2, h3⟩ => ?_
  subst h1
  have h5 : 5 ≤ base := by
    obtain ⟨k, hk⟩ := ha.aligned
    have := ha.pos
    rw [PAGE_SIZE_eq] at hk
    omega
  intro chk s t hi hr
  obtain ⟨t', e1, s', e2, hr', mem, e3⟩ := patch_ok hr chk hp (dest := b) (by omega) (by omega)
  rw [e1]
  show SameOutcome _ (JitMemory.rawWrite4 _ _ s) _ ∧ Inv base (JitMemory.rawWrite4 _ _ s).state
  rw [e2]
  subst e3
  exact ⟨.ok trivial hr', hi.putMem _⟩

/-! All calls -/

theorem Mimics.unit {m : M Unit} {w : Machine.M β} {R : Unit → β → Prop} (h : Mimics base R m w) :
    Mimics base R (m >>= fun _ => Pure.pure ()) w := by
  rw [show (m >>= fun _ => Pure.pure ()) = m from bind_pure_unit m]
  exact h

theorem Mimics.op (ha : Alloc base) (hb : base + 3 * PAGE_SIZE < 2 ^ 63) (op : Op) (hn : Numbers op) :
    Mimics base (fun _ _ => True) op.run op.onMachine := by
  cases op with
  | select_page p =>
    intro chk s t hi hr
    show SameOutcome _ (JitMemory.select_page p s) (Machine.JitMemory.select_page p chk t) ∧ Inv base (JitMemory.select_page p s).state
    by_cases h : p < 2
    · have e : JitMemory.select_page p s = .ok () { s with page := p } := by
        simp only [JitMemory.select_page, h, decide_true, M.assert_true, pure_bind]; rfl
      rw [e]
      simp only [Machine.JitMemory.select_page, if_pos h]
      exact ⟨.ok trivial ⟨rfl, hr.pages, hr.labels, hr.mem⟩, hi.contents, hi.counter, h, hi.loc, hi.tgt⟩
    · have e : JitMemory.select_page p s = .panic .assertFailed s := by
        simp only [JitMemory.select_page, h, decide_false, M.assert_false, M.panic_bind]; rfl
      rw [e]
      simp only [Machine.JitMemory.select_page, if_neg h]
      exact ⟨.panic hr, hi⟩
  | cur c =>
    refine Mimics.cur fun p hp => Mimics.pageCall ha (Nat.lt_succ_of_lt hp) c fun pos v e => ?_
    subst e; exact hn
  | page p c =>
    refine Mimics.then (Mimics.checkPage p) fun hp => Mimics.pageCall ha hp c fun pos v e => ?_
    subst e; exact hn
  | emit bs => rw [Op.run_items (op := .emit bs) rfl]; exact Mimics.items ha _
  | new c =>
    cases c with
    | label => exact Mimics.bind Mimics.label fun _ _ _ => Mimics.pure trivial
    | data_i64 | data_i32 | data =>
      simp only [Op.run, NewCall.run, JitMemory.data_i64, JitMemory.data_i32, JitMemory.data, bind_assoc, pure_bind]
      exact Mimics.bind Mimics.label fun a b e => by subst e; exact (Mimics.pushData _ _).unit
    | _ =>
      simp only [Op.run, NewCall.run, JitMemory.const_f64, JitMemory.const_i64, JitMemory.const_i32, JitMemory.constant,
        JitMemory.abs_address, JitMemory.const_align8, bind_assoc, pure_bind]
      exact Mimics.bind Mimics.label fun a b e => by subst e; exact (Mimics.pushConstant _ _).unit
  | bind_label l => rw [Op.run_items (op := .bind_label l) rfl]; exact Mimics.items ha _
  | bind_label_with_page p l => exact Mimics.bind_label_with_page p l
  | save_reloc l off => exact Mimics.save_reloc l off
  | enc c => rw [Op.run_items (op := .enc c) rfl]; exact Mimics.items ha _
  | inst i =>
    cases h : (Op.inst i).itemsOf with
    | none => simp only [Op.itemsOf] at h; split at h <;> cases h
    | some its =>
      rw [Op.run_items h]
      show Mimics base _ _ (itemsOnMachine ((Op.inst i).itemsOf.getD []))
      rw [h]
      exact Mimics.items ha _
  | finalize => exact Mimics.finalize ha
  | apply_jmp_patch p d =>
    refine Mimics.bind (Mimics.get_label_address ha p) fun a b ⟨h1, h2, h3⟩ => ?_
    subst h1
    exact Mimics.patch_address ha hb (by omega) d
  | apply_jmp_patch_address a d =>
    have h : a < 2 ^ 63 := hn
    have e : (BitVec.ofNat 64 a).toNat = a := by rw [BitVec.toNat_ofNat]; exact Nat.mod_eq_of_lt (by omega)
    have := Mimics.patch_address ha hb (pp := BitVec.ofNat 64 a) (by omega) d
    rw [e] at this
    exact this

theorem _root_.Spec.SameOutcome.state {x : Res α} {y : Machine.Res β} (h : SameOutcome R x y) : Represents y.state x.state := by
  cases h with
  | ok _ h => exact h
  | panic h => exact h

theorem _root_.Spec.SameOutcome.fault_iff {x : Res α} {y : Machine.Res β} (h : SameOutcome R x y) {e : Machine.Fault} :
    (∃ t, y = .fault e t) ↔ ∃ e' s, x = .panic e' s ∧ e = .panic e' := by
  cases h with
  | ok _ h => constructor <;> rintro ⟨_, h⟩ <;> simp at h
  | panic h =>
    constructor
    · rintro ⟨t, h⟩; cases h; exact ⟨_, _, rfl, rfl⟩
    · rintro ⟨e', s, h1, h2⟩; cases h1; subst h2; exact ⟨_, rfl⟩

theorem represents_new (ha : Alloc base) (mem : Nat → Byte) :
    Represents (Machine.JitMemory.new (BitVec.ofNat 64 base) fun a => mem a.toNat) (JitMemory.new base mem) := by
  refine ⟨rfl, fun p hp => ?_, rfl, fun _ => rfl⟩
  have h1 := ha.user
  have h2 := page_mul hp
  have e : (BitVec.ofNat 64 base + BitVec.ofNat 64 (PAGE_SIZE * p)).toNat = base + PAGE_SIZE * p := by
    have hP := PAGE_SIZE_eq
    rw [BitVec.toNat_add, BitVec.toNat_ofNat, BitVec.toNat_ofNat]
    generalize PAGE_SIZE * p = x at *
    omega
  show MemPage.new (base + PAGE_SIZE * p) = natPage (Machine.MemPage.new (BitVec.ofNat 64 base + BitVec.ofNat 64 (PAGE_SIZE * p)))
  simp only [natPage, Machine.MemPage.new, e]
  rfl

end
end Monoasm
