import Verif.Proofs.Parallel
import Verif.Props.C65
/-
  C76: compiling while another processor executes the code.

  One processor executes generated code (and functions outside of it); another one calls the API, and the
  stores of a call become visible one after the other while the first goes on. Where a call stores, the
  code pages may hold anything until the call ends. Any number of further processors may store elsewhere.
-/

namespace Monoasm
open Spec X86 JitMemory

variable {base : Nat} {mem : Nat → Monoasm.Byte} {K K' S P : List Op} {E : Effect} {F : Host} {p p' : Crew} {d : Data}

/-- What the processor does is what the source of the finished code says, at every moment, whatever calls
    are in progress: the two descriptions of the process are the same. -/
theorem C76 (hA : Alloc base) (hr : SameRecords p.jit (reach base mem K)) (hH : Holding base mem K p.call p.cpu.data) :
    Crew.Run base (machine E) F (fun K c s => Calm base mem K c ∧ Undisturbed base mem E F K c s) K p K' p'
      ↔ Crew.Run base (Told base mem E) F (fun K c s => Calm base mem K c ∧ Undisturbed base mem E F K c s) K p K' p' := by
  constructor
  · intro h
    induction h with
    | done hQ => exact .done hQ
    | step hQ hs _ ih =>
      obtain ⟨g1, g2⟩ := crew_step hA hs hr (.inr hQ) hH
      exact .step hQ (crew_mono hs fun s' hf h => ⟨hf, told_of_step hA (.inr hQ) hH hf h⟩) (ih g1 g2)
  · intro h
    induction h with
    | done hQ => exact .done hQ
    | step hQ hs _ ih =>
      have hs' := crew_mono (R' := machine E) hs fun s' _ h => step_of_told hA hQ.1 hH h
      obtain ⟨g1, g2⟩ := crew_step hA hs' hr (.inr hQ) hH
      exact .step hQ hs' (ih g1 g2)

/-- Records and memory: in particular, when no call is in progress, memory holds the code of all calls. -/
theorem C76_holding (hA : Alloc base) (h : Crew.Run base (machine E) F (fun K c s => Calm base mem K c ∧ Undisturbed base mem E F K c s) K p K' p')
    (hr : SameRecords p.jit (reach base mem K)) (hH : Holding base mem K p.call p.cpu.data) :
    SameRecords p'.jit (reach base mem K') ∧ Holding base mem K' p'.call p'.cpu.data
      ∧ (p'.call = none → Loaded base mem K' p'.cpu.data) := by
  obtain ⟨-, h1, h2⟩ := crew_run hA (crew_weaken h fun _ _ _ => .inr) hr hH
  exact ⟨h1, h2, fun e => by rw [e] at h2; exact h2⟩

/-- The reason: calls that are not patches do not store to the code of a program that is there. Since it
    was complete, it has stayed the same. -/
theorem C76_apart (hA : Alloc base) {c n i} (hc : Calm base mem K c) (h : Present base mem K c P S) (hn : S[n]? = some (.inst i))
    {a : Nat} (h1 : Spec.place base mem P n ≤ a) (h2 : a < Spec.place base mem P (n + 1)) :
    (reach base mem K).mem a = (reach base mem P).mem a ∧ ∀ op, c = some op → ¬ Stores (reach base mem K) op a :=
  (present_bytes hA hc h hn h1 h2).2

/-- Code of the calls made later is there as soon as they are complete. -/
theorem C76_new (hC : Complete base mem K S) : Present base mem K none K S :=
  ⟨hC, by simp, [], by simp, by simp⟩

/-! ### An endless loop, and more code being generated behind it -/

def C76_loop : List Op := [.new .label, .bind_label 0, .inst (.Jmp (.rel 0)), .finalize]

private theorem alloc : Alloc 0x10000000 := ⟨by rw [PAGE_SIZE_eq]; decide, by decide, by rw [PAGE_SIZE_eq]; decide⟩

theorem C76_loop_ok : Complete 0x10000000 (fun _ => 0xcc) C76_loop C76_loop := C65_check alloc (by decide +kernel)

private theorem loop_places : Spec.place 0x10000000 (fun _ => 0xcc) C76_loop 1 = 0x10000000 ∧ Spec.place 0x10000000 (fun _ => 0xcc) C76_loop 2 = 0x10000000 := by
  decide +kernel

private theorem loop_step {c} (hP : Present 0x10000000 (fun _ => 0xcc) K c C76_loop C76_loop) (hc : Calm 0x10000000 (fun _ => 0xcc) K c)
    (hH : Holding 0x10000000 (fun _ => 0xcc) K c d) (s' : State) :
    X86.Step E ⟨0x10000000#64, d⟩ s' ↔ s' = ⟨0x10000000#64, d⟩ := by
  have hn : C76_loop[2]? = some (.inst (.Jmp (.rel 0))) := rfl
  have e2 : placeW 0x10000000 (fun _ => 0xcc) C76_loop 2 = 0x10000000#64 := by rw [placeW, loop_places.2]
  have e1 : placeW 0x10000000 (fun _ => 0xcc) C76_loop 1 = 0x10000000#64 := by rw [placeW, loop_places.1]
  have hI := present_intact alloc hc hP hn hH
  constructor
  · intro h
    obtain ⟨r, d'⟩ := s'
    rw [← e2] at h
    rcases live_back hP.1 alloc hn (complete_valid hP.1 hn rfl rfl) hI h with ⟨m, h1, rfl⟩ | ⟨⟨h1, -⟩, -⟩
    · obtain ⟨h2, rfl⟩ := live_jmp hn h1
      have : m = 1 := by
        obtain ⟨h2 | h2, -⟩ := h2 <;> rcases m with - | - | - | - | m <;> first | rfl | cases h2
      rw [this, e1]
    · cases h1
  · rintro rfl
    have := live_forward (E := E) hP.1 alloc (m := 1) hI (.jmp hn ⟨.inr rfl, by decide +kernel⟩)
    rwa [e1, e2] at this

private theorem loop_guard {c} (hc : Calm 0x10000000 (fun _ => 0xcc) K c) (hP : Present 0x10000000 (fun _ => 0xcc) K c C76_loop C76_loop)
    (hH : Holding 0x10000000 (fun _ => 0xcc) K c d) :
    Calm 0x10000000 (fun _ => 0xcc) K c ∧ Undisturbed 0x10000000 (fun _ => 0xcc) E (fun _ _ => False) K c ⟨0x10000000#64, d⟩ := by
  refine ⟨hc, .inr ⟨_, _, 2, _, hP, rfl, rfl, rfl, by rw [placeW, loop_places.2]⟩, ?_⟩
  rintro s' (h | h) a - -
  · rw [(loop_step hP hc hH s').1 h]
  · exact h.elim

private theorem loop_run {K : List Op} {j : JitMemory} {op : Op} (hK : K = C76_loop) (hj : j = reach 0x10000000 (fun _ => 0xcc) K)
    (hL : Loaded 0x10000000 (fun _ => 0xcc) K d) (hop : op = .inst .Ret) (hst : Stores j op 0x10000005) :
    ∃ d' j', Crew.Run 0x10000000 (machine E) (fun _ _ => False)
      (fun K c s => Calm 0x10000000 (fun _ => 0xcc) K c ∧ Undisturbed 0x10000000 (fun _ => 0xcc) E (fun _ _ => False) K c s)
      K ⟨⟨0x10000000#64, d⟩, j, none⟩ (K ++ [op]) ⟨⟨0x10000000#64, d'⟩, j', none⟩ ∧ Loaded 0x10000000 (fun _ => 0xcc) (K ++ [op]) d' := by
  obtain ⟨d1, hd1⟩ : ∃ d1 : Data, d1 = { d with mem := fun x => if x = 0x10000005#64 then 0x90 else d.mem x } := ⟨_, rfl⟩
  obtain ⟨d2, hd2⟩ : ∃ d2 : Data, d2 = { d1 with mem := fun x => (op.run (joined j d1)).state.mem x.toNat } := ⟨_, rfl⟩
  have ht : tame op = true := by rw [hop]; rfl
  have hC : Complete 0x10000000 (fun _ => 0xcc) K C76_loop := by rw [hK]; exact C76_loop_ok
  have k0 := (complete_smooth hC).noPanic
  have n0 := (complete_smooth hC).raw
  have k1 : KeepsLabels (JitMemory.new 0x10000000 fun _ => 0xcc) (K ++ [op]) := keepsLabels_append.2 ⟨k0, (fun e => by rw [hop] at e; cases e), trivial⟩
  have n1 : NoRaw (K ++ [op]) := noRaw_append.2 ⟨n0, by intro o ho; cases List.mem_singleton.1 ho; exact tame_raw ht⟩
  have c0 : Calm 0x10000000 (fun _ => 0xcc) K none := ⟨by simpa using n0, by simpa using k0, by simp⟩
  have c1 : Calm 0x10000000 (fun _ => 0xcc) K (some op) := ⟨n1, k1, by rintro o ⟨⟩; exact ht⟩
  have c2 : Calm 0x10000000 (fun _ => 0xcc) (K ++ [op]) none := ⟨by simpa using n1, by simpa using k1, by simp⟩
  have p0 : Present 0x10000000 (fun _ => 0xcc) K none C76_loop C76_loop := ⟨C76_loop_ok, by simp, [], by simpa using hK, by simp⟩
  have p1 : Present 0x10000000 (fun _ => 0xcc) K (some op) C76_loop C76_loop := ⟨C76_loop_ok, by rintro o ⟨⟩; exact ht, [], by simpa using hK, by simp⟩
  have p2 : Present 0x10000000 (fun _ => 0xcc) (K ++ [op]) none C76_loop C76_loop :=
    ⟨C76_loop_ok, by simp, [op], by rw [hK], by rintro o ho; cases List.mem_singleton.1 ho; exact ht⟩
  have hr : SameRecords j (reach 0x10000000 (fun _ => 0xcc) K) := by rw [hj]; exact .refl _
  have s0 : Crew.Step 0x10000000 (machine E) (fun _ _ => False) K ⟨⟨0x10000000#64, d⟩, j, none⟩ [] ⟨⟨0x10000000#64, d⟩, j, some op⟩ := .start op
  have g0 := loop_guard (E := E) c0 p0 hL
  have h1 := crew_step alloc s0 hr (.inr g0) hL
  rw [List.append_nil] at h1
  have g1 := loop_guard (E := E) c1 p1 h1.2
  have s1 : Crew.Step 0x10000000 (machine E) (fun _ _ => False) K ⟨⟨0x10000000#64, d⟩, j, some op⟩ [] ⟨⟨0x10000000#64, d1⟩, j, some op⟩ := by
    rw [hd1]
    refine .store (by rw [hop]; rfl) fun x hx => ?_
    by_cases e : x = 0x10000005#64
    · rw [e, show (0x10000005#64 : BitVec 64).toNat = 0x10000005 by decide +kernel] at hx; exact absurd hst hx
    · exact if_neg e
  have h2 := crew_step alloc s1 hr (.inr g1) h1.2
  rw [List.append_nil] at h2
  have g2 := loop_guard (E := E) c1 p1 h2.2
  have s2 : Crew.Step 0x10000000 (machine E) (fun _ _ => False) K ⟨⟨0x10000000#64, d1⟩, j, some op⟩ [] ⟨⟨0x10000000#64, d1⟩, j, some op⟩ :=
    .code (by have := live_home (mem := fun _ => 0xcc) (K := C76_loop) alloc 2; rwa [placeW, loop_places.2] at this)
      ((loop_step p1 c1 h2.2 _).2 rfl)
  have s3 : Crew.Step 0x10000000 (machine E) (fun _ _ => False) K ⟨⟨0x10000000#64, d1⟩, j, some op⟩ [] ⟨⟨0x10000000#64, d2⟩, j, some op⟩ := by
    rw [hd2]
    refine .store (by rw [hop]; rfl) fun x hx => ?_
    refine (not_stores hx _).trans ?_
    show d1.mem (BitVec.ofNat 64 x.toNat) = _
    rw [BitVec.ofNat_toNat, BitVec.setWidth_eq]
  have h3 := crew_step alloc s3 hr (.inr g2) h2.2
  rw [List.append_nil] at h3
  have g3 := loop_guard (E := E) c1 p1 h3.2
  have s4 : Crew.Step 0x10000000 (machine E) (fun _ _ => False) K ⟨⟨0x10000000#64, d2⟩, j, some op⟩ [op] ⟨⟨0x10000000#64, d2⟩, (op.run (joined j d2)).state, none⟩ :=
    .finish fun a h1 h2 hs => by
      have := alloc.user
      have : view d2 a = (op.run (joined j d1)).state.mem a := by
        rw [hd2]
        show (op.run (joined j d1)).state.mem (BitVec.ofNat 64 a).toNat = _
        rw [BitVec.toNat_ofNat, Nat.mod_eq_of_lt (by omega)]
      rw [this]
      exact stored_value hs _ _
  have h4 := crew_step alloc s4 hr (.inr g3) h3.2
  have g4 := loop_guard (E := E) c2 p2 h4.2
  have e := List.append_nil K
  refine ⟨d2, (op.run (joined j d2)).state, .step g0 s0 ?_, h4.2⟩
  rw [e]
  refine .step g1 s1 ?_
  rw [e]
  refine .step g2 s2 ?_
  rw [e]
  refine .step g2 s3 ?_
  rw [e]
  exact .step g3 s4 (.done g4)

/-- While another processor assembles a `ret` behind the loop (a wrong byte is visible for a while), the
    loop goes on. -/
example (hL : Loaded 0x10000000 (fun _ => 0xcc) C76_loop d) :
    ∃ d' j', Crew.Run 0x10000000 (machine E) (fun _ _ => False)
      (fun K c s => Calm 0x10000000 (fun _ => 0xcc) K c ∧ Undisturbed 0x10000000 (fun _ => 0xcc) E (fun _ _ => False) K c s)
      C76_loop ⟨⟨0x10000000#64, d⟩, reach 0x10000000 (fun _ => 0xcc) C76_loop, none⟩
      (C76_loop ++ [.inst .Ret]) ⟨⟨0x10000000#64, d'⟩, j', none⟩ ∧ Loaded 0x10000000 (fun _ => 0xcc) (C76_loop ++ [.inst .Ret]) d' :=
  loop_run rfl rfl hL rfl ⟨fun _ => 0xcc, by decide +kernel⟩

end Monoasm
