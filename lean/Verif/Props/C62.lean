import Verif.Proofs.Trial
import Verif.Props.C60
/-
  C62: one trial run is enough. If a history of calls passes the trial with the memory at one address,
  then it does so wherever the memory is allocated and whatever it contains; it is assembled without a
  panic, and the processor executes it as written.

  The history is arbitrary: code for both pages, alignment, raw bytes, constants and data in any order,
  any number of `finalize`s, labels bound before or after they are used. Not allowed are the calls that
  overwrite code (C57 is about patches) and `save_reloc`.
-/

namespace Monoasm
open Spec X86

variable {b0 base : Nat} {m0 mem : Nat → Monoasm.Byte} {H : List Op} {E : Effect} {k n m : Nat} {d d' : Data} {s s' : State}

/-- The outcome of the trial does not depend on the address of the memory and its contents. -/
theorem C62_anywhere {b1 b2 : Nat} {m1 m2 : Nat → Monoasm.Byte} (a1 : Alloc b1) (a2 : Alloc b2) : trial b1 m1 H = trial b2 m2 H := by
  rw [Bool.eq_iff_iff]
  exact ⟨trial_moved a1 a2, trial_moved a2 a1⟩

/-- The trial checks exactly what it is meant to check. -/
theorem C62_exact (hA : Alloc base) : trial base mem H = true ↔ Passes base mem H :=
  ⟨fun h => (tried h).passes hA, trial_complete hA.pos⟩

/-- The programs that pass the check of C52 pass it, if their jumps and calls are to labels that are placed
    in the code. -/
theorem C62_simple {pre : List NewCall} {is : List (Inst Val Nat)} (hw : WellFormed pre is)
    (hd : ∀ i ∈ is, isDirect i = true → ∀ l, i.mentions l → .Label l ∈ is) (hA : Alloc base) (mem) : trial base mem (simple pre is) = true :=
  trial_complete hA.pos (simple_passes hw hA mem hd)

/-- The program of C52 does. -/
example (hA : Alloc base) (mem) : trial base mem (simple C52_program.1 C52_program.2) = true := by
  refine C62_simple C52_program_ok (fun i hi hd l hl => ?_) hA mem
  simp only [C52_program, List.mem_cons, List.not_mem_nil, or_false] at hi
  rcases hi with rfl | rfl | rfl | rfl | rfl | rfl <;> try cases hd
  have : l ∈ [0] := hl
  rw [List.mem_singleton.1 this]
  exact List.mem_cons_self ..

/-- No call panics. -/
theorem C62 (a0 : Alloc b0) (h : trial b0 m0 H = true) (hA : Alloc base) (mem) : ∃ s, runOps H (JitMemory.new base mem) = .ok () s :=
  ⟨_, (tried (trial_moved a0 hA h)).run⟩

/-- At the code of any of the statements, as long as that has not been overwritten, the processor
    executes exactly the instruction that the statement is encoded as, with labels at the addresses that
    they have in the end. -/
theorem C62_step (a0 : Alloc b0) (h : trial b0 m0 H = true) (hA : Alloc base) {i I r} (hn : H[n]? = some (.inst i))
    (hI : instrAt base mem H encoded n i = some I) (hd : Intact base mem H n d) :
    X86.Step E ⟨placeW base mem H n, d⟩ ⟨r, d'⟩ ↔ Exec E (placeW base mem H (n + 1)) I d r d' :=
  have t := tried (mem := mem) (trial_moved a0 hA h)
  step_at hA t.raw t.noPanic hn (t.ready hA hn) hI hd

/-- All labels of the statements have an address in the end; a label that is bound by a call has the
    address of the code that follows. -/
theorem C62_label (a0 : Alloc b0) (h : trial b0 m0 H = true) (hA : Alloc base) {l : DestLabel} :
    ((∃ i, .inst i ∈ H ∧ i.mentions l) → ∃ a, HasAddress (reach base mem H) l a)
    ∧ (H[n]? = some (.bind_label l) ∨ H[n]? = some (.inst (.Label l)) → HasAddress (reach base mem H) l (Spec.place base mem H n)) := by
  have t := tried (mem := mem) (trial_moved a0 hA h)
  refine ⟨fun ⟨i, hi, hl⟩ => ?_, fun hn => binds_address hA t.raw t.noPanic (t.once l) (t.binds hn)⟩
  obtain ⟨⟨p, c⟩, hc⟩ := Option.isSome_iff_exists.1 (t.bound i hi l hl)
  exact ⟨_, hasAddress_of_loc (inv_reach base mem H) hA.pos hc⟩

/-- The processor executes what the source says: `k` instructions of the source program are `k` steps. -/
theorem C62_flow (a0 : Alloc b0) (h : trial b0 m0 H = true) (hA : Alloc base) (hr : Flow base mem H encoded E k n d m d') :
    Steps E k ⟨placeW base mem H n, d⟩ ⟨placeW base mem H m, d'⟩ := by
  have t := tried (mem := mem) (trial_moved a0 hA h)
  induction hr with
  | done => exact .zero
  | step h1 h2 h3 _ ih =>
    have e := C49_step_partial hA t.raw t.noPanic h3 (fun i hi _ => t.ready hA hi) (fun _ => h2)
    rw [placeW, h1, Nat.add_comm]
    exact steps_append e ih

/-- It does nothing else: `k` steps through statements whose code has not been overwritten are `k`
    instructions of the source program. -/
theorem C62_only (a0 : Alloc b0) (h : trial b0 m0 H = true) (hA : Alloc base)
    (hr : Through (fun s => ∃ n, AtCode base mem H n s) E k s s') (hn : placeW base mem H n = s.rip) :
    ∃ m, Flow base mem H encoded E k n s.data m s'.data ∧ placeW base mem H m = s'.rip := by
  have t := tried (mem := mem) (trial_moved a0 hA h)
  induction hr generalizing n with
  | zero _ => exact ⟨n, .done, hn⟩
  | @succ k s s1 s' h1 h2 h3 ih =>
    have hs1 : ∃ n, AtCode base mem H n s1 := by cases h3 <;> assumption
    obtain ⟨q, ⟨i, hi, hl, hd⟩, hrip, hI⟩ := h1
    obtain ⟨q1, -, hrip1, -⟩ := hs1
    have h4 : X86.Step E ⟨placeW base mem H q, s.data⟩ ⟨s1.rip, s1.data⟩ := by rw [← hrip]; exact h2
    rcases C49_only_partial hA t.raw t.noPanic hi (t.valid hi hl hd) (t.ready hA hi) hI
      (fun l hm hdir => t.placedAt (List.mem_of_getElem? hi) hm hdir) h4 with ⟨m1, h5, h6⟩ | ⟨-, -, h5⟩
    · obtain ⟨m, h7, h8⟩ := ih h6
      exact ⟨m, .step (placeW_eq hA (hn.trans hrip)) hI h5 h7, h8⟩
    · exact absurd hrip1.symm (h5 q1)

/-- The same with the statements read as written, if none of them is of the two kinds of C25 and C33. -/
theorem C62_written (a0 : Alloc b0) (h : trial b0 m0 H = true) (hA : Alloc base) (ho : ∀ i, .inst i ∈ H → asWrittenB i = true) :
    Flow base mem H encoded E k n d m d' ↔ Flow base mem H meaning E k n d m d' := by
  have t := tried (mem := mem) (trial_moved a0 hA h)
  have e : ∀ (n : Nat) i, H[n]? = some (.inst i) → ∀ rel, meaning rel i = encoded rel i := fun n i hi rel =>
    ordinary_encoded (asWrittenB_sound (t.meaningful i (List.mem_of_getElem? hi)) (ho i (List.mem_of_getElem? hi))) rel
  constructor
  · intro hf
    induction hf with
    | done => exact .done
    | step h1 h2 h3 _ ih => exact .step h1 h2 (sourceStep_read (e _) h3) ih
  · intro hf
    induction hf with
    | done => exact .done
    | step h1 h2 h3 _ ih => exact .step h1 h2 (sourceStep_read (fun i hi rel => (e _ i hi rel).symm) h3) ih

/-- The statement at which the processor is, is determined by the address. -/
theorem C62_position (a0 : Alloc b0) (h : trial b0 m0 H = true) (hA : Alloc base) (h1 : AtCode base mem H n s) (h2 : AtCode base mem H m s) :
    n = m := by
  have t := tried (mem := mem) (trial_moved a0 hA h)
  obtain ⟨⟨i, hi, hl, hd⟩, hrip, -⟩ := h1
  obtain ⟨⟨j, hj, hl', hd'⟩, hrip', -⟩ := h2
  have e := placeW_eq hA (hrip.symm.trans hrip')
  rcases Nat.lt_trichotomy n m with hlt | heq | hlt
  · exact absurd e (t.apart hA hi hj hl hd hl' hd' hlt)
  · exact heq
  · exact absurd e.symm (t.apart hA hj hi hl' hd' hl hd hlt)

/-- It is not stuck at a statement, unless that is of the kinds that may stop (C60). -/
theorem C62_progress (a0 : Alloc b0) (h : trial b0 m0 H = true) (hA : Alloc base) {i} (hn : H[n]? = some (.inst i)) (hm : mayStop i = false)
    (hs : AtCode base mem H n s) : ∃ s', X86.Step Described s s' := by
  have t := tried (mem := mem) (trial_moved a0 hA h)
  obtain ⟨⟨j, hj, hl, hd⟩, hrip, hI⟩ := hs
  rw [hn] at hj
  cases hj
  obtain ⟨I, hI2⟩ := encoded_some (t.valid hn hl hd) (dist (labelAddr (reach base mem H)) (Spec.place base mem H (n + 1)))
  have := (C60 hA t.raw t.noPanic hn (t.ready hA hn) hI2 hI).2 (quiet_stops (encoded_quiet hm hI2))
  rw [← hrip] at this
  exact this

/-- A program for both pages: the code of page 0 calls a function on page 1 that is generated later,
    after a first `finalize`, and uses a constant; then more code follows on page 0. -/
def C62_program : List Op :=
  [.new .label, .new .label, .new (.const_i64 7), .bind_label 0,
   .inst (.Movq (.reg (.reg 0)) (.ind ⟨.reg 16, .none, .label 2⟩)), .inst (.Call (.rel 1)), .finalize,
   .select_page 1, .cur .align16, .inst (.Label 1), .inst (.Sub .QWORD (.reg (.reg 7)) (.imm 1)), .inst .Ret,
   .select_page 0, .inst .Ret, .new (.data_i64 9), .finalize]

/-- It passes the trial, at any address. -/
theorem C62_program_ok (hA : Alloc base) (mem) : trial base mem C62_program = true := by
  have a0 : Alloc 0x10000000 := ⟨by rw [PAGE_SIZE_eq]; decide, by decide, by rw [PAGE_SIZE_eq]; decide⟩
  exact trial_moved (m1 := fun _ => 0xcc) a0 hA (by decide +kernel)

/-- Its call goes to the other page: two instructions from the first one on. -/
example (d : Data) (hd : Loaded 0x10000000 (fun _ => 0xcc) C62_program d) (hE : ∀ I next d, E I next d d) :
    ∃ d', Steps E 2 ⟨placeW 0x10000000 (fun _ => 0xcc) C62_program 3, d⟩ ⟨placeW 0x10000000 (fun _ => 0xcc) C62_program 9, d'⟩
      ∧ placeW 0x10000000 (fun _ => 0xcc) C62_program 9 = 0x20000000 := by
  have hA : Alloc 0x10000000 := ⟨by rw [PAGE_SIZE_eq]; decide, by decide, by rw [PAGE_SIZE_eq]; decide⟩
  have ht := C62_program_ok hA (fun _ => 0xcc)
  have e4 : Spec.place 0x10000000 (fun _ => 0xcc) C62_program 4 = 0x10000000 := by decide +kernel
  have e5 : Spec.place 0x10000000 (fun _ => 0xcc) C62_program 5 = 0x10000007 := by decide +kernel
  have e6 : Spec.place 0x10000000 (fun _ => 0xcc) C62_program 6 = 0x1000000c := by decide +kernel
  have hI : ∀ n lo hi, Spec.place 0x10000000 (fun _ => 0xcc) C62_program n = lo → Spec.place 0x10000000 (fun _ => 0xcc) C62_program (n + 1) = hi →
      0x10000000 ≤ lo → hi ≤ 0x20000000 → Intact 0x10000000 (fun _ => 0xcc) C62_program n d := by
    intro n lo hi h1 h2 h3 h4 a h5 h6
    rw [h1] at h5
    rw [h2] at h6
    exact hd a (by omega) (by rw [PAGE_SIZE_eq]; omega)
  have hF : Flow 0x10000000 (fun _ => 0xcc) C62_program encoded E 2 3 d 9 (d.push (placeW 0x10000000 (fun _ => 0xcc) C62_program 6)) := by
    refine .step (m := 4) (n' := 5) (by decide +kernel) (hI 4 _ _ e4 e5 (by decide) (by decide)) (.seq rfl rfl rfl (hE _ _ _)) ?_
    refine .step (m := 5) (n' := 9) rfl (hI 5 _ _ e5 e6 (by decide) (by decide)) (.call rfl ⟨.inl rfl, by decide +kernel⟩) .done
  exact ⟨_, C62_flow hA ht hA hF, by decide +kernel⟩

/-- A label that is never bound, a label that is bound twice, an immediate that does not fit: rejected. -/
example : trial 0x10000000 (fun _ => 0xcc) [.new .label, .inst (.Jmp (.rel 0)), .finalize] = false
    ∧ trial 0x10000000 (fun _ => 0xcc) [.new .label, .bind_label 0, .inst .Ret, .bind_label 0, .finalize] = false
    ∧ trial 0x10000000 (fun _ => 0xcc) [.inst (.Add .BYTE (.reg (.reg 0)) (.imm 1000)), .finalize] = false := by
  decide +kernel

end Monoasm
