import Verif.Model.Api
import Verif.Proofs.Bytes
/-
  Exact effect of the emission primitives on the state.
-/

set_option linter.unusedSimpArgs false

namespace Monoasm
open JitMemory

theorem PAGE_SIZE_eq : PAGE_SIZE = 268435456 := rfl

/-! ### Running -/

theorem M.bind_def {α β} (m : M α) (f : α → M β) (s) :
    (m >>= f) s = match m s with
      | .ok a s' => f a s'
      | .panic e s' => .panic e s' := rfl
theorem M.pure_def {α} (a : α) (s) : (pure a : M α) s = .ok a s := rfl

theorem bind_ok {α β} {m : M α} {f : α → M β} {s b s'} (h : (m >>= f) s = .ok b s') :
    ∃ a s1, m s = .ok a s1 ∧ f a s1 = .ok b s' := by
  rw [M.bind_def] at h
  split at h
  · rename_i a s1 h1; exact ⟨a, s1, h1, h⟩
  · cases h

theorem ok_bind {α β} {m : M α} {f : α → M β} {s a s1} (h : m s = .ok a s1) :
    (m >>= f) s = f a s1 := by rw [M.bind_def, h]

theorem panic_bind {α β} {m : M α} {f : α → M β} {s e s1} (h : m s = .panic e s1) :
    (m >>= f) s = .panic e s1 := by rw [M.bind_def, h]

theorem pure_ok {α} {a b : α} {s s'} (h : (pure a : M α) s = .ok b s') : a = b ∧ s = s' := by
  cases h; exact ⟨rfl, rfl⟩

@[simp] theorem Res.state_ok {α} (a : α) (s) : (Res.ok a s).state = s := rfl
@[simp] theorem Res.state_panic {α} (e) (s) : (Res.panic e s : Res α).state = s := rfl

/-! ### Writing a list of bytes -/

/-- Memory with the bytes `bs` stored from address `a` on. -/
def putBytes (mem : Nat → Byte) (a : Nat) : List Byte → (Nat → Byte)
  | [] => mem
  | b :: bs => putBytes (upd mem a b) (a + 1) bs

@[simp] theorem putBytes_nil (mem a) : putBytes mem a [] = mem := rfl
theorem putBytes_cons (mem a b bs) : putBytes mem a (b :: bs) = putBytes (upd mem a b) (a + 1) bs := rfl

theorem putBytes_append (mem a bs cs) :
    putBytes mem a (bs ++ cs) = putBytes (putBytes mem a bs) (a + bs.length) cs := by
  induction bs generalizing mem a with
  | nil => rfl
  | cons b bs ih =>
    simp only [List.cons_append, putBytes, ih, List.length_cons]
    congr 1; omega

theorem upd_same (mem a v) : upd mem a v a = v := by simp [upd]
theorem upd_ne (mem : Nat → Byte) {a x v} (h : x ≠ a) : upd mem a v x = mem x := by simp [upd, h]

theorem putBytes_out (mem : Nat → Byte) {a bs x} (h : x < a ∨ a + bs.length ≤ x) :
    putBytes mem a bs x = mem x := by
  induction bs generalizing mem a with
  | nil => rfl
  | cons b bs ih =>
    simp only [List.length_cons] at h
    rw [putBytes, ih _ (by omega), upd_ne _ (by omega)]

theorem putBytes_in (mem : Nat → Byte) {a bs i} (h : i < bs.length) :
    putBytes mem a bs (a + i) = bs[i] := by
  induction bs generalizing mem a i with
  | nil => simp at h
  | cons b bs ih =>
    rw [putBytes]
    cases i with
    | zero => rw [putBytes_out _ (by omega)]; simp [upd]
    | succ i =>
      have : a + (i + 1) = a + 1 + i := by omega
      rw [this, ih]
      · simp
      · simpa using h

/-- The `n` bytes from address `a` on. -/
def bytesAt (mem : Nat → Byte) (a n : Nat) : List Byte := (List.range n).map fun i => mem (a + i)

@[simp] theorem bytesAt_length (mem a n) : (bytesAt mem a n).length = n := by simp [bytesAt]
@[simp] theorem bytesAt_zero (mem a) : bytesAt mem a 0 = [] := rfl

theorem bytesAt_add (mem a m n) : bytesAt mem a (m + n) = bytesAt mem a m ++ bytesAt mem (a + m) n := by
  simp only [bytesAt, List.range_add, List.map_append, List.map_map]
  congr 1
  apply List.map_congr_left
  intro i _
  simp [Nat.add_assoc]

theorem bytesAt_eq_iff (mem a) (bs : List Byte) :
    bytesAt mem a bs.length = bs ↔ ∀ i, ∀ h : i < bs.length, mem (a + i) = bs[i] := by
  constructor
  · intro h i hi
    have : (bytesAt mem a bs.length)[i]'(by simpa using hi) = bs[i] := by
      simp only [h]
    rw [← this]; simp [bytesAt]
  · intro h
    apply List.ext_getElem
    · simp
    · intro i h1 h2
      simp [bytesAt, h i h2]

theorem bytesAt_congr {m m' : Nat → Byte} {a n} (h : ∀ i, i < n → m (a + i) = m' (a + i)) :
    bytesAt m a n = bytesAt m' a n := by
  apply List.map_congr_left
  intro i hi
  exact h i (by simpa using hi)

theorem bytesAt_put (mem a bs) : bytesAt (putBytes mem a bs) a bs.length = bs :=
  (bytesAt_eq_iff _ _ _).2 fun _ h => putBytes_in mem h

/-! ### Emission -/

/-- The state after emitting `bs` on page `p`. -/
def emitted (s : JitMemory) (p : Page) (bs : List Byte) : JitMemory :=
  { s with
    mem := putBytes s.mem ((s.pages p).contents + (s.pages p).counter) bs
    pages := fun q => if q = p then { s.pages q with counter := (s.pages q).counter + bs.length }
      else s.pages q }

/-- The state left by a panic in the middle of emitting `bs` on page `p`: the bytes that fit are
    written, the cursor has not moved. -/
def spilled (s : JitMemory) (p : Page) (bs : List Byte) : JitMemory :=
  { s with
    mem := putBytes s.mem ((s.pages p).contents + (s.pages p).counter)
      (bs.take (PAGE_SIZE - (s.pages p).counter)) }

theorem emitted_nil (s p) : emitted s p [] = s := by
  cases s; simp [emitted]

theorem emitted_append (s p bs cs) : emitted s p (bs ++ cs) = emitted (emitted s p bs) p cs := by
  simp only [emitted, putBytes_append, if_true, Nat.add_assoc, List.length_append, JitMemory.mk.injEq,
    true_and, and_true]
  funext q
  by_cases h : q = p <;> simp [h, Nat.add_assoc]

theorem setCounter_eq (p c s) : MemPage.setCounter p c s
    = .ok () { s with pages := fun q => if q = p then { s.pages q with counter := c } else s.pages q } := rfl

def emitRes (p : Page) (bs : List Byte) : M Unit := fun s =>
  if (s.pages p).counter + bs.length ≤ PAGE_SIZE then .ok () (emitted s p bs)
  else .panic .pageSizeOverflow (spilled s p bs)

/-- a run of `write`s followed by the update of the cursor -/
def writes (p : Page) (pos : Nat) : List Byte → M Unit
  | [] => pure ()
  | b :: bs => do MemPage.write p pos b; writes p (pos + 1) bs

theorem writes_run (p pos bs s) : writes p pos bs s =
    if pos + bs.length ≤ PAGE_SIZE ∨ bs = [] then
      .ok () { s with mem := putBytes s.mem ((s.pages p).contents + pos) bs }
    else .panic .pageSizeOverflow
      { s with mem := putBytes s.mem ((s.pages p).contents + pos) (bs.take (PAGE_SIZE - pos)) } := by
  induction bs generalizing pos s with
  | nil => simp [writes]; rfl
  | cons b bs ih =>
    simp only [writes]
    by_cases h : pos ≥ PAGE_SIZE
    · have e : PAGE_SIZE - pos = 0 := by omega
      rw [panic_bind (s1 := s) (e := .pageSizeOverflow) (by simp [MemPage.write, h])]
      rw [if_neg (by simp; omega)]
      simp [e]
    · rw [ok_bind (a := ()) (s1 := { s with mem := upd s.mem ((s.pages p).contents + pos) b })
        (by simp [MemPage.write, h]), ih]
      simp only [putBytes, List.length_cons, reduceCtorEq, or_false]
      by_cases h2 : pos + (bs.length + 1) ≤ PAGE_SIZE
      · rw [if_pos (by left; omega), if_pos h2]; rfl
      · rw [if_neg (c := pos + (bs.length + 1) ≤ PAGE_SIZE) h2]
        have e : PAGE_SIZE - pos = (PAGE_SIZE - (pos + 1)) + 1 := by omega
        rw [if_neg]
        · simp only [e, List.take_succ_cons, putBytes]; rfl
        · rintro (h' | rfl)
          · omega
          · simp at h2; omega

theorem emit_writes (p bs s) (hb : bs ≠ []) :
    ((do let c ← MemPage.counterOf p; writes p c bs; MemPage.setCounter p (c + bs.length)) : M Unit) s
      = emitRes p bs s := by
  have e : MemPage.counterOf p s = .ok (s.pages p).counter s := rfl
  rw [ok_bind e]
  simp only [emitRes]
  by_cases h : (s.pages p).counter + bs.length ≤ PAGE_SIZE
  · rw [if_pos h, ok_bind (by rw [writes_run, if_pos (Or.inl h)]), setCounter_eq]
    simp only [emitted, Res.ok.injEq, JitMemory.mk.injEq, true_and, and_true]
    funext q
    by_cases hq : q = p <;> simp [hq]
  · rw [if_neg h, panic_bind (by rw [writes_run, if_neg (by simp [h, hb])])]; rfl

theorem emitb_run (p v s) : MemPage.emitb p v s = emitRes p [v] s := by
  rw [← emit_writes _ _ _ (by simp)]
  simp [MemPage.emitb, writes]

theorem emitw_run (p v s) : MemPage.emitw p v s = emitRes p (le16 v) s := by
  rw [← emit_writes _ _ _ (by simp [le16])]
  simp [MemPage.emitw, writes, le16]

theorem emitl_run (p v s) : MemPage.emitl p v s = emitRes p (le32 v) s := by
  rw [← emit_writes _ _ _ (by simp [le32])]
  simp [MemPage.emitl, writes, le32]

theorem write32_run (p pos v s) : MemPage.write32 p pos v s = writes p pos (le32 v) s := by
  simp [MemPage.write32, writes, le32]

theorem write64_run (p pos v s) : MemPage.write64 p pos v s = writes p pos (le64 v) s := by
  simp [MemPage.write64, writes, le64]

theorem emitRes_append (p bs cs s) (h : (s.pages p).counter + bs.length + cs.length ≤ PAGE_SIZE) :
    (do emitRes p bs; emitRes p cs : M Unit) s = .ok () (emitted s p (bs ++ cs)) := by
  rw [ok_bind (a := ()) (s1 := emitted s p bs), emitRes, if_pos, emitted_append]
  · simp [emitted]; omega
  · rw [emitRes, if_pos (by omega)]

theorem emitq_run (p v s) (h : (s.pages p).counter + 8 ≤ PAGE_SIZE) :
    MemPage.emitq p v s = .ok () (emitted s p (le64 v)) := by
  rw [le64_eq, ← emitRes_append]
  · simp only [MemPage.emitq]
    have : ∀ v, MemPage.emitl p v = emitRes p (le32 v) := fun v => funext fun s => emitl_run p v s
    rw [this, this]
  · simp; omega

theorem emitRes_ok {p bs s a s'} (h : emitRes p bs s = .ok a s') :
    (s.pages p).counter + bs.length ≤ PAGE_SIZE ∧ s' = emitted s p bs := by
  simp only [emitRes] at h
  split at h
  · cases h; exact ⟨by assumption, rfl⟩
  · cases h

theorem emitq_ok {p v s a s'} (h : MemPage.emitq p v s = .ok a s') :
    (s.pages p).counter + 8 ≤ PAGE_SIZE ∧ s' = emitted s p (le64 v) := by
  simp only [MemPage.emitq] at h
  obtain ⟨_, s1, h1, h2⟩ := bind_ok h
  rw [emitl_run] at h1 h2
  obtain ⟨h1, rfl⟩ := emitRes_ok h1
  obtain ⟨h3, rfl⟩ := emitRes_ok h2
  simp only [emitted, if_true, le32_length] at h3
  rw [le64_eq, emitted_append]
  exact ⟨by omega, rfl⟩

theorem cur_bind {α} (f : Page → M α) (s) : (JitMemory.cur >>= f) s = f s.page s := rfl

end Monoasm
