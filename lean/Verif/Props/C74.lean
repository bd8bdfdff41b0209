import Verif.Proofs.Session
import Verif.Props.C65
/-
  C74: a compiler that works while its code runs (`Spec/Session.lean`).
-/

namespace Monoasm
open Spec X86

variable {base : Nat} {mem : Nat → Monoasm.Byte} {K K' S S' : List Op} {E : Effect} {F : Functions} {p p' : Process} {c c' : Control}
  {d d' : Data} {n : Nat}

/-- Whatever happens in the process, as long as the processor, when it is not outside, is at statements of
    the program generated so far whose code has not been overwritten, is what the source says, with the
    program changing as the functions call the API. The `JitMemory` has the records of the calls. -/
theorem C74 (hA : Alloc base) (h : Process.Run base E F (Guarded base mem) K p K' p') (hr : SameRecords p.jit (reach base mem K))
    (hc : c.Is base mem K p.cpu) :
    ∃ c', Session base mem E F K c p.cpu.data K' c' p'.cpu.data ∧ c'.Is base mem K' p'.cpu ∧ SameRecords p'.jit (reach base mem K') := by
  induction h generalizing c with
  | done => exact ⟨c, .done, hc, hr⟩
  | @step K p ops p' K'' p'' hQ hs hrun ih =>
    have hQ' : Guarded base mem (K ++ ops) p'.cpu := by cases hrun <;> assumption
    cases hs with
    | @code s s' j hf hs =>
      rw [List.append_nil] at *
      rcases hQ with hQ | ⟨S, m, hC, ⟨i, hi, hl, hd⟩, hrip, hI⟩
      · exact absurd hQ hf
      cases c with
      | out r => exact absurd (hc.1 ▸ hc.2) hf
      | «at» n =>
        have hc : s.rip = placeW base mem K n := hc
        have e : Spec.place base mem K n = Spec.place base mem K m := placeW_eq hA (hc.symm.trans hrip)
        have h4 : X86.Step E ⟨placeW base mem K m, s.data⟩ ⟨s'.rip, s'.data⟩ := by rw [← hrip]; exact hs
        rcases live_back hC hA hi (complete_valid hC hi hl hd) hI h4 with ⟨m1, h5, h6⟩ | ⟨⟨h5, I, h6, h7, h8⟩, h9⟩
        · obtain ⟨c', g1, g2, g3⟩ := ih (c := .at m1) hr h6.symm
          exact ⟨c', .step (.code hC e hI h5) g1, g2, g3⟩
        · rcases hQ' with hQ' | ⟨S', m', -, -, hrip', -⟩
          · obtain ⟨c', g1, g2, g3⟩ := ih (c := .out s'.rip) hr ⟨rfl, hQ'⟩
            exact ⟨c', .step (.leave hC e hI ⟨i, I, hi, h5, h6, h7, h8, hQ'⟩) g1, g2, g3⟩
          · exact absurd hrip'.symm (h9 m')
    | @host s s' j hf hs =>
      rw [List.append_nil] at *
      cases c with
      | «at» n => exact absurd (show s.rip = placeW base mem K n from hc) (fun e => live_home hA n (e ▸ hf))
      | out r =>
        obtain ⟨r', d⟩ := s
        obtain ⟨rfl, -⟩ : r' = r ∧ _ := hc
        rw [joined_alike hr] at hs
        rcases hQ' with hQ' | ⟨S', m', -, -, hrip', -⟩
        · obtain ⟨c', g1, g2, g3⟩ := ih (c := .out s'.rip) hr ⟨rfl, hQ'⟩
          exact ⟨c', .step (.host hs hQ') g1, g2, g3⟩
        · obtain ⟨c', g1, g2, g3⟩ := ih (c := .at m') hr hrip'
          obtain ⟨r1, d1⟩ := s'
          simp only at hrip'
          subst hrip'
          exact ⟨c', .step (.back hs) g1, g2, g3⟩
    | @call p op hf =>
      cases c with
      | «at» n => exact absurd (show p.cpu.rip = placeW base mem K n from hc) (fun e => live_home hA n (e ▸ hf))
      | out r =>
        obtain ⟨c', g1, g2, g3⟩ := ih (c := .out r) (call_records hr) hc
        refine ⟨c', .step (.call op) ?_, g2, g3⟩
        rw [← joined_alike hr]
        exact g1

/-- Conversely, the process does what the source says. -/
theorem C74_back (hA : Alloc base) (h : Session base mem E F K c d K' c' d') (hr : SameRecords p.jit (reach base mem K))
    (hc : c.Is base mem K p.cpu) (hd : p.cpu.data = d) :
    ∃ p', Process.Run base E F (fun _ _ => True) K p K' p' ∧ c'.Is base mem K' p'.cpu ∧ p'.cpu.data = d'
      ∧ SameRecords p'.jit (reach base mem K') := by
  induction h generalizing p with
  | done => exact ⟨p, .done trivial, hc, hd, hr⟩
  | step hs _ ih =>
    obtain ⟨⟨rip, d0⟩, j⟩ := p
    subst hd
    cases hs with
    | @code S n m n' _ _ h1 h2 h3 h4 =>
      have e : rip = placeW base mem _ n := hc
      have hst := live_forward h1 hA h3 h4
      obtain ⟨p', g1, g2⟩ := ih (p := ⟨⟨placeW base mem _ n', _⟩, j⟩) hr rfl rfl
      refine ⟨p', .step trivial (.code ?_ (?_ : X86.Step E ⟨rip, _⟩ _)) (by rw [List.append_nil]; exact g1), g2⟩
      · rw [show (State.mk rip d0).rip = _ from e]; exact live_home hA n
      · rw [e, placeW, h2]; exact hst
    | @leave S n m _ s h1 h2 h3 h4 =>
      have e : rip = placeW base mem _ n := hc
      obtain ⟨i, I, g1, g2, g3, g4, g5, g6⟩ := h4
      have hst := (live_step h1 hA g1 g3 h3).2 g5
      obtain ⟨p', k1, k2⟩ := ih (p := ⟨s, j⟩) hr ⟨rfl, g6⟩ rfl
      refine ⟨p', .step trivial (.code ?_ (?_ : X86.Step E ⟨rip, _⟩ _)) (by rw [List.append_nil]; exact k1), k2⟩
      · rw [show (State.mk rip d0).rip = _ from e]; exact live_home hA n
      · rw [e, placeW, h2]; exact hst
    | @host r _ s h1 h2 =>
      obtain ⟨rfl, hf⟩ : rip = r ∧ _ := hc
      obtain ⟨p', k1, k2⟩ := ih (p := ⟨s, j⟩) hr ⟨rfl, h2⟩ rfl
      exact ⟨p', .step trivial (.host hf (by rw [joined_alike hr]; exact h1)) (by rw [List.append_nil]; exact k1), k2⟩
    | @back r _ n _ h1 =>
      obtain ⟨rfl, hf⟩ : rip = r ∧ _ := hc
      obtain ⟨p', k1, k2⟩ := ih (p := ⟨⟨placeW base mem _ n, _⟩, j⟩) hr rfl rfl
      exact ⟨p', .step trivial (.host hf (by rw [joined_alike hr]; exact h1)) (by rw [List.append_nil]; exact k1), k2⟩
    | @call r _ op =>
      obtain ⟨rfl, hf⟩ : rip = r ∧ _ := hc
      obtain ⟨p', k1, k2⟩ := ih (p := Process.call op ⟨⟨rip, d0⟩, j⟩) (call_records hr) ⟨rfl, hf⟩ (by rw [← joined_alike hr]; rfl)
      exact ⟨p', .step trivial (.call op hf) k1, k2⟩

/-- The code of all statements is as it should be at any time if nothing but the calls of the API writes to
    the code pages; so it is enough that the processor is at statements. -/
theorem C74_intact (hA : Alloc base) (h : Process.Run base E F (fun K s => Anywhere base mem K s ∧ LeavesCode base E F s) K p K' p')
    (hr : SameRecords p.jit (reach base mem K)) (hL : Loaded base mem K p.cpu.data) :
    Process.Run base E F (Guarded base mem) K p K' p' ∧ Loaded base mem K' p'.cpu.data := by
  have key : ∀ {K s}, Anywhere base mem K s → Loaded base mem K s.data → Guarded base mem K s := by
    rintro K s (h | ⟨S, n, i, h1, h2, h3, h4, h5⟩) hL
    · exact .inl h
    · exact .inr ⟨S, n, h1, ⟨i, h2, h3, h4⟩, h5, loaded_intact hL n⟩
  induction h with
  | done hQ => exact ⟨.done (key hQ.1 hL), hL⟩
  | step hQ hs _ ih =>
    cases hs with
    | code hf hs =>
      rw [List.append_nil] at *
      obtain ⟨g1, g2⟩ := ih hr fun a h1 h2 => (hQ.2 _ (.inl hs) a h1 h2).trans (hL a h1 h2)
      exact ⟨.step (key hQ.1 hL) (.code hf hs) (by rw [List.append_nil]; exact g1), g2⟩
    | host hf hs =>
      rw [List.append_nil] at *
      obtain ⟨g1, g2⟩ := ih hr fun a h1 h2 => (hQ.2 _ (.inr ⟨_, hs⟩) a h1 h2).trans (hL a h1 h2)
      exact ⟨.step (key hQ.1 hL) (.host hf hs) (by rw [List.append_nil]; exact g1), g2⟩
    | call op hf =>
      obtain ⟨g1, g2⟩ := ih (call_records hr) (call_loaded hA hr hL)
      exact ⟨.step (key hQ.1 hL) (.call op hf) g1, g2⟩

/-- From the beginning: a process in which a function has just created the `JitMemory`. -/
theorem C74_process (hA : Alloc base) {s : State} (hf : Foreign base s.rip)
    (h : Process.Run base E F (fun K s' => Anywhere base (view s.data) K s' ∧ LeavesCode base E F s') [] ⟨s, JitMemory.new base mem⟩ K' p') :
    ∃ c', Session base (view s.data) E F [] (.out s.rip) s.data K' c' p'.cpu.data ∧ c'.Is base (view s.data) K' p'.cpu
      ∧ Loaded base (view s.data) K' p'.cpu.data ∧ SameRecords p'.jit (reach base (view s.data) K') := by
  have hr : SameRecords (JitMemory.new base mem) (reach base (view s.data) []) := ⟨rfl, rfl, rfl⟩
  obtain ⟨h1, h2⟩ := C74_intact hA h hr fun a _ _ => rfl
  obtain ⟨c', g1, g2, g3⟩ := C74 (c := .out s.rip) hA h1 hr ⟨rfl, hf⟩
  exact ⟨c', g1, g2, h2, g3⟩

/-- While the program grows, positions keep their addresses (so that return addresses stay valid), labels
    keep theirs, and statements change only by being patched. -/
theorem C74_stable (hA : Alloc base) {ops : List Op} (h : Complete base mem K S) (h' : Complete base mem (K ++ ops) S') :
    (∀ n, n ≤ K.length → placeW base mem (K ++ ops) n = placeW base mem K n)
    ∧ (∀ l a, HasAddress (reach base mem K) l a → HasAddress (reach base mem (K ++ ops)) l a)
    ∧ ∀ n i, S[n]? = some (.inst i) → S'[n]? = some (.inst i)
      ∨ ∃ k op d, K.length ≤ k ∧ (K ++ ops)[k]? = some op ∧ PatchesAt (reach base mem ((K ++ ops).take k)) (Spec.place base mem K n) d op := by
  have hpl : ∀ n, n ≤ K.length → Spec.place base mem (K ++ ops) n = Spec.place base mem K n := fun n hn => by
    rw [Spec.place, List.take_append_of_le_length hn]; rfl
  refine ⟨fun n hn => by rw [placeW, hpl n hn]; rfl, fun l a => complete_labels hA h', fun n i hn => ?_⟩
  obtain ⟨S0, h1, h2⟩ := becomes_append h'.becomes rfl
  cases becomes_unique (complete_smooth h) h.becomes h1
  have hlen : n < S.length := (List.getElem?_eq_some_iff.1 hn).1
  rw [becomes_length h1] at hlen
  rw [← hpl n (by omega)]
  exact h2 n i hn

/-- The calls of a function change neither the registers nor memory outside of the pages, and they leave
    the code pages as they should be. (Patches have to be of jumps in the pages.) -/
theorem C74_calls (hA : Alloc base) {ops : List Op} {r : BitVec 64} (hL : Loaded base mem K d)
    (hp : ∀ pre op post, ops = pre ++ op :: post → op.isPatch → ∀ a, Overwrites (reach base mem (K ++ pre)) op a → Owns base a) :
    ∃ m, Session base mem E F K (.out r) d (K ++ ops) (.out r) { d with mem := m } ∧ Loaded base mem (K ++ ops) { d with mem := m }
      ∧ ∀ x, ¬ Owns base x.toNat → m x = d.mem x := by
  induction ops generalizing K d with
  | nil => exact ⟨d.mem, by rw [List.append_nil]; exact .done, by rw [List.append_nil]; exact hL, fun _ _ => rfl⟩
  | cons op ops ih =>
    obtain ⟨h1, h2⟩ := remember_call (op := op) hA hL fun h a ha => hp [] op ops rfl h a (by rw [List.append_nil]; exact ha)
    obtain ⟨m, g1, g2, g3⟩ := ih (K := K ++ [op]) h1 fun pre o post e h a ha =>
      hp (op :: pre) o post (by rw [e]; rfl) h a (by rw [List.append_assoc] at ha; exact ha)
    rw [List.append_assoc] at g1 g2
    exact ⟨m, .step (.call op) g1, g2, fun x hx => (g3 x hx).trans (h2 x hx)⟩

/-! ### A function that is compiled when it is first called -/

/-- The code generated first: the function `f` (label 0) calls a stub (label 1), which calls the function
    at address 0x5000 and jumps to the address that this returns. -/
def C74_stub : List Op :=
  [.new .label, .new .label, .bind_label 0, .inst (.Call (.rel 1)), .inst .Ret,
   .inst (.Label 1), .inst (.Movq (.reg (.reg 0)) (.imm 0x5000 none)), .inst (.Call (.reg 0)), .inst (.Jmp (.reg 0)), .finalize]

/-- The calls made by the function at 0x5000: it generates a function that returns 42 on page 1, and patches
    the call of the stub. -/
def C74_compile : List Op :=
  [.new .label, .select_page 1, .inst (.Label 2), .inst (.Movq (.reg (.reg 0)) (.imm 42 none)), .inst .Ret, .finalize, .apply_jmp_patch 0 2]

/-- A function at 0x6000 calls `f`, at the start of page 0. -/
def C74_caller : Functions := fun _ s s' => s.rip = 0x6000 ∧ s' = ⟨0x10000000, s.data.push 0x6000⟩

/-- The function at 0x5000 returns the address of label 2. -/
def C74_compiler : Functions := fun j s s' => s.rip = 0x5000 ∧ ∃ a t, JitMemory.get_label_u64 2 j = .ok a t ∧
  s' = ⟨s.data.load64 (s.data.gpr rsp), s.data.drop.setGpr rax (BitVec.ofNat 64 a)⟩

theorem C74_stub_ok : Complete 0x10000000 (fun _ => 0xcc) C74_stub C74_stub :=
  C65_check ⟨by rw [PAGE_SIZE_eq]; decide, by decide, by rw [PAGE_SIZE_eq]; decide⟩ (by decide +kernel)

theorem C74_compiled_ok : Complete 0x10000000 (fun _ => 0xcc) (C74_stub ++ C74_compile) ((C74_stub ++ C74_compile).set 3 (.inst (.Call (.rel 2)))) :=
  C65_check ⟨by rw [PAGE_SIZE_eq]; decide, by decide, by rw [PAGE_SIZE_eq]; decide⟩ (by decide +kernel)

private theorem mov_effect (next : BitVec 64) (d : Data) (v : BitVec 64) :
    Described ((Instr.mov .q (.gpr 0) (.imm v)).absolute next) next d (d.setGpr 0 v) :=
  ⟨_, _, eff_mov_ri _ _ _ _, ⟨fun _ => rfl, fun _ => rfl, fun _ => rfl, fun _ => rfl, fun _ => rfl⟩, rfl⟩

private theorem pushed {H : List Op} {d d' : Data} {v s s' : BitVec 64} (h : Loaded 0x10000000 mem H d) (hs : d.gpr rsp = s)
    (hd : d' = d.push v) (hn : 0x40000000 ≤ s.toNat) (e : s - 8 = s') :
    Loaded 0x10000000 mem H d' ∧ d'.gpr rsp = s' ∧ d'.load64 s' = v
    ∧ ∀ a, 8 ≤ (a - s').toNat → 8 ≤ (s' - a).toNat → d'.load64 a = d.load64 a := by
  subst hd e hs
  refine ⟨loaded_frame h (W := Below (d.gpr rsp) 8) (fun a h1 h2 hb => ?_) fun x hx => pushed_mem _ _ hx, rfl, pushed_top _ _,
    fun a h1 h2 => load64_other _ _ _ _ h1 h2⟩
  rw [PAGE_SIZE_eq] at h2
  simp only [Below, BitVec.toNat_sub, BitVec.toNat_ofNat, BitVec.ofNat_eq_ofNat] at hb
  omega

private theorem patches_home (pre : List Op) (op : Op) (post : List Op) (e : C74_compile = pre ++ op :: post) (ho : op.isPatch) (a : Nat)
    (ha : Overwrites (reach 0x10000000 (fun _ => 0xcc) (C74_stub ++ pre)) op a) : Owns 0x10000000 a := by
  have hx : op = .apply_jmp_patch 0 2 ∧ pre = C74_compile.take 6 := by
    rcases pre with _ | ⟨o0, _ | ⟨o1, _ | ⟨o2, _ | ⟨o3, _ | ⟨o4, _ | ⟨o5, _ | ⟨o6, pre⟩⟩⟩⟩⟩⟩⟩ <;>
      simp only [C74_compile, List.nil_append, List.cons_append, List.cons.injEq] at e
    all_goals first
      | (cases (show _ = op from by first | exact e.1 | exact e.2.1 | exact e.2.2.1 | exact e.2.2.2.1 | exact e.2.2.2.2.1 | exact e.2.2.2.2.2.1); cases ho; done)
      | skip
    · exact ⟨e.2.2.2.2.2.2.1.symm, by rw [C74_compile, ← e.1, ← e.2.1, ← e.2.2.1, ← e.2.2.2.1, ← e.2.2.2.2.1, ← e.2.2.2.2.2.1]; rfl⟩
    · simp at e
  obtain ⟨rfl, rfl⟩ := hx
  obtain ⟨x, h1, h2⟩ := ha
  have h3 : (reach 0x10000000 (fun _ => 0xcc) (C74_stub ++ C74_compile.take 6)).locOf 0 = some (0, 0) := by decide +kernel
  have h4 : ((reach 0x10000000 (fun _ => 0xcc) (C74_stub ++ C74_compile.take 6)).pages 0).contents = 0x10000000 := by decide +kernel
  rw [get_label_address_eq h3 (by rw [h4]; decide), h4] at h1
  injection h1 with h1
  rw [Owns, PAGE_SIZE_eq]
  omega

/-- From the new function on, called by `f`. -/
private theorem body {F : Functions} {d : Data} (hL : Loaded 0x10000000 (fun _ => 0xcc) (C74_stub ++ C74_compile) d)
    (hs : d.gpr rsp = 0x7fffffffeff0) (h1 : d.load64 0x7fffffffeff0 = 0x10000005) (h2 : d.load64 0x7fffffffeff8 = 0x6000) :
    ∃ d', Session 0x10000000 (fun _ => 0xcc) Described F (C74_stub ++ C74_compile) (.at 12) d (C74_stub ++ C74_compile) (.out 0x6000) d'
      ∧ Loaded 0x10000000 (fun _ => 0xcc) (C74_stub ++ C74_compile) d' ∧ d'.gpr rsp = 0x7ffffffff000 ∧ d'.gpr rax = 42 := by
  have q4 : placeW 0x10000000 (fun _ => 0xcc) (C74_stub ++ C74_compile) 4 = 0x10000005 := by decide +kernel
  have e : (d.setGpr 0 42).drop.gpr rsp = 0x7fffffffeff8 := by show d.gpr rsp + 8 = _; rw [hs]; rfl
  refine ⟨(d.setGpr 0 42).drop.drop, ?_, hL, ?_, rfl⟩
  · refine .step (.code (m := 13) C74_compiled_ok (by decide +kernel) (loaded_intact hL 13)
      (.seq (I := .mov .q (.gpr 0) (.imm 42)) rfl rfl rfl (mov_effect _ _ _))) ?_
    refine .step (.code (m := 14) (n' := 4) (d' := (d.setGpr 0 42).drop) C74_compiled_ok rfl (loaded_intact hL 14)
      (.indirect (I := .ret) rfl rfl rfl rfl ?_)) ?_
    · rw [q4, ← h1, ← hs]; exact .ret
    refine .step (.leave (m := 4) (s := ⟨0x6000, (d.setGpr 0 42).drop.drop⟩) C74_compiled_ok rfl (loaded_intact hL 4)
      ⟨.Ret, .ret, rfl, rfl, rfl, rfl, ?_, .inl (show (0x6000 : BitVec 64).toNat < _ by decide)⟩) .done
    show Exec _ _ _ _ 0x6000 _
    have : (d.setGpr 0 42).drop.load64 ((d.setGpr 0 42).drop.gpr rsp) = 0x6000 := by rw [e]; exact h2
    rw [← this]; exact .ret
  · show (d.setGpr 0 42).drop.gpr rsp + 8 = _; rw [e]; rfl

/-- The first call of `f` compiles; it and the next one, for which there is no compiler any more, return 42. -/
theorem C74_lazy {d : Data} (hL : Loaded 0x10000000 (fun _ => 0xcc) C74_stub d) (hs : d.gpr rsp = 0x7ffffffff000) :
    ∃ d1 d2, Session 0x10000000 (fun _ => 0xcc) Described (fun j s s' => C74_caller j s s' ∨ C74_compiler j s s')
        C74_stub (.out 0x6000) d (C74_stub ++ C74_compile) (.out 0x6000) d1
      ∧ d1.gpr rax = 42 ∧ d1.gpr rsp = d.gpr rsp
      ∧ Session 0x10000000 (fun _ => 0xcc) Described C74_caller
        (C74_stub ++ C74_compile) (.out 0x6000) d1 (C74_stub ++ C74_compile) (.out 0x6000) d2
      ∧ d2.gpr rax = 42 ∧ d2.gpr rsp = d.gpr rsp := by
  have hA : Alloc 0x10000000 := ⟨by rw [PAGE_SIZE_eq]; decide, by decide, by rw [PAGE_SIZE_eq]; decide⟩
  -- addresses
  have p3 : placeW 0x10000000 (fun _ => 0xcc) C74_stub 3 = 0x10000000 := by decide +kernel
  have p4 : placeW 0x10000000 (fun _ => 0xcc) C74_stub 4 = 0x10000005 := by decide +kernel
  have p8 : placeW 0x10000000 (fun _ => 0xcc) C74_stub 8 = 0x10000012 := by decide +kernel
  have q3 : placeW 0x10000000 (fun _ => 0xcc) (C74_stub ++ C74_compile) 3 = 0x10000000 := by decide +kernel
  have q4 : placeW 0x10000000 (fun _ => 0xcc) (C74_stub ++ C74_compile) 4 = 0x10000005 := by decide +kernel
  have q8 : placeW 0x10000000 (fun _ => 0xcc) (C74_stub ++ C74_compile) 8 = 0x10000012 := by decide +kernel
  have q12 : placeW 0x10000000 (fun _ => 0xcc) (C74_stub ++ C74_compile) 12 = 0x20000000 := by decide +kernel
  have f5 : Foreign 0x10000000 0x5000 := .inl (by decide)
  -- the call of `f`, to the compiler
  obtain ⟨d1, e1⟩ : ∃ d1, d1 = d.push 0x6000 := ⟨_, rfl⟩
  obtain ⟨L1, g1, t1, -⟩ := pushed hL hs e1 (s' := 0x7fffffffeff8) (by decide) (by decide)
  obtain ⟨d2, e2⟩ : ∃ d2, d2 = d1.push (placeW 0x10000000 (fun _ => 0xcc) C74_stub 4) := ⟨_, rfl⟩
  obtain ⟨L2, g2, t2, k2⟩ := pushed L1 g1 e2 (s' := 0x7fffffffeff0) (by decide) (by decide)
  obtain ⟨d3, e3⟩ : ∃ d3, d3 = d2.setGpr 0 0x5000 := ⟨_, rfl⟩
  have L3 : Loaded 0x10000000 (fun _ => 0xcc) C74_stub d3 := by rw [e3]; exact L2
  have g3 : d3.gpr rsp = 0x7fffffffeff0 := by rw [e3]; exact g2
  obtain ⟨d4, e4⟩ : ∃ d4, d4 = d3.push (placeW 0x10000000 (fun _ => 0xcc) C74_stub 8) := ⟨_, rfl⟩
  obtain ⟨L4, g4, t4, k4⟩ := pushed L3 g3 e4 (s' := 0x7fffffffefe8) (by decide) (by decide)
  have u4 : d4.load64 0x7fffffffeff0 = 0x10000005 := by
    rw [k4 _ (by decide) (by decide), e3, load64_setGpr, t2, p4]
  have v4 : d4.load64 0x7fffffffeff8 = 0x6000 := by
    rw [k4 _ (by decide) (by decide), e3, load64_setGpr, k2 _ (by decide) (by decide), t1]
  rw [p8] at t4
  -- compilation
  obtain ⟨m, S5, L5, hm⟩ := C74_calls (E := Described) (F := fun j s s' => C74_caller j s s' ∨ C74_compiler j s s') (ops := C74_compile)
    (r := 0x5000) hA L4 patches_home
  obtain ⟨d5, e5⟩ : ∃ d5 : Data, d5 = { d4 with mem := m } := ⟨_, rfl⟩
  rw [← e5] at S5 L5
  have far : ∀ a : BitVec 64, 0x7fffffffef00 ≤ a.toNat → a.toNat < 0x7ffffffff000 → d5.load64 a = d4.load64 a := fun a h1 h2 =>
    load64_congr _ _ fun x hx => by
      rw [e5]
      refine hm x fun ho => ?_
      simp only [Owns, PAGE_SIZE_eq] at ho
      simp only [Within, BitVec.toNat_sub] at hx
      omega
  have g5 : d5.gpr rsp = 0x7fffffffefe8 := by rw [e5]; exact g4
  have t5 : d5.load64 0x7fffffffefe8 = 0x10000012 := by rw [far _ (by decide) (by decide), t4]
  have u5 : d5.load64 0x7fffffffeff0 = 0x10000005 := by rw [far _ (by decide) (by decide), u4]
  have v5 : d5.load64 0x7fffffffeff8 = 0x6000 := by rw [far _ (by decide) (by decide), v4]
  -- back in the stub, and in the new function
  obtain ⟨d6, e6⟩ : ∃ d6, d6 = d5.drop.setGpr rax 0x20000000 := ⟨_, rfl⟩
  have L6 : Loaded 0x10000000 (fun _ => 0xcc) (C74_stub ++ C74_compile) d6 := by rw [e6]; exact L5
  have g6 : d6.gpr rsp = 0x7fffffffeff0 := by rw [e6]; show d5.gpr rsp + 8 = _; rw [g5]; rfl
  have a6 : d6.gpr 0 = 0x20000000 := by rw [e6]; rfl
  have u6 : d6.load64 0x7fffffffeff0 = 0x10000005 := by rw [e6]; exact u5
  have v6 : d6.load64 0x7fffffffeff8 = 0x6000 := by rw [e6]; exact v5
  obtain ⟨d7, W7, L7, g7, a7⟩ := body (F := fun j s s' => C74_caller j s s' ∨ C74_compiler j s s') L6 g6 u6 v6
  -- the second call
  obtain ⟨d8, e8⟩ : ∃ d8, d8 = d7.push 0x6000 := ⟨_, rfl⟩
  obtain ⟨L8, g8, t8, -⟩ := pushed L7 g7 e8 (s' := 0x7fffffffeff8) (by decide) (by decide)
  obtain ⟨d9, e9⟩ : ∃ d9, d9 = d8.push (placeW 0x10000000 (fun _ => 0xcc) (C74_stub ++ C74_compile) 4) := ⟨_, rfl⟩
  obtain ⟨L9, g9, t9, k9⟩ := pushed L8 g8 e9 (s' := 0x7fffffffeff0) (by decide) (by decide)
  obtain ⟨d10, W10, L10, g10, a10⟩ := body (F := C74_caller) L9 g9 (by rw [t9, q4]) (by rw [k9 _ (by decide) (by decide), t8])
  refine ⟨d7, d10, ?_, a7, g7.trans hs.symm, ?_, a10, g10.trans hs.symm⟩
  · -- first
    refine .step (.back (n := 3) (d' := d1) (.inl ⟨rfl, by rw [p3, e1]⟩)) ?_
    refine .step (.code (m := 3) (n' := 5) C74_stub_ok rfl (loaded_intact L1 3) (e2 ▸ LiveStep.call (l := 1) rfl ⟨.inl rfl, by decide +kernel⟩)) ?_
    refine .step (.code (m := 6) C74_stub_ok (by decide +kernel) (loaded_intact L2 6)
      (.seq (I := .mov .q (.gpr 0) (.imm 0x5000)) rfl rfl rfl (e3 ▸ mov_effect _ _ _))) ?_
    refine .step (.leave (m := 7) (s := ⟨0x5000, d4⟩) C74_stub_ok rfl (loaded_intact L3 7)
      ⟨.Call (.reg 0), .callInd (.gpr 0), rfl, rfl, rfl, rfl, ?_, f5⟩) ?_
    · have : (Opd.gpr 0).value (placeW 0x10000000 (fun _ => 0xcc) C74_stub (7 + 1)) d3 = 0x5000 := by rw [e3]; rfl
      rw [e4, ← this]
      exact .callInd
    refine session_append S5 (.step (.back (n := 8) (d' := d6) (.inr ⟨rfl, 0x20000000, _, get_label_u64_eq (p := 1) (c := 0) ?_, ?_⟩)) ?_)
    · show (reach 0x10000000 (fun _ => 0xcc) (C74_stub ++ C74_compile)).locOf 2 = _
      decide +kernel
    · rw [q8]; show _ = State.mk (d5.load64 (d5.gpr rsp)) _; rw [g5, t5, e6]; rfl
    refine .step (.code (m := 8) (n' := 12) C74_compiled_ok rfl (loaded_intact L6 8)
      (.indirect (I := .jmpInd (.gpr 0)) rfl rfl rfl rfl ?_)) W7
    have : (Opd.gpr 0).value (placeW 0x10000000 (fun _ => 0xcc) (C74_stub ++ C74_compile) (8 + 1)) d6
        = placeW 0x10000000 (fun _ => 0xcc) (C74_stub ++ C74_compile) 12 := by rw [q12]; exact a6
    rw [← this]
    exact .jmpInd
  · -- second
    refine .step (.back (n := 3) (d' := d8) ⟨rfl, by rw [q3, e8]⟩) ?_
    exact .step (.code (m := 3) (n' := 12) C74_compiled_ok rfl (loaded_intact L8 3) (e9 ▸ LiveStep.call (l := 2) rfl ⟨.inl rfl, by decide +kernel⟩)) W10

end Monoasm
