import Verif.Spec.Session
/-
  Specification: generated code on one processor while another one calls the API. A call is not one
  event then: it has a beginning and an end, and its stores become visible in between.
-/

namespace Spec
open Monoasm

/-- The call stores to the byte at `a`. (Where a call stores does not depend on the memory, C69.) -/
def Stores (s : JitMemory) (op : Op) (a : Nat) : Prop := ∃ m, (op.run { s with mem := m }).state.mem a ≠ m a

/-- Size of the lines of the cache. Bytes of a line that one instruction stores become visible at once;
    bytes of different lines do not. -/
abbrev LINE : Nat := 64

/-- The processor that executes generated code (its memory is the memory that all have); the records of
    the `JitMemory`, as they were when the call in progress began; and the call in progress, if there is one. -/
structure Crew where
  cpu : X86.State
  jit : JitMemory
  call : Option Op

/-- How the processor steps, when these calls were made before and this one is in progress. -/
abbrev Engine := List Op → Option Op → X86.State → X86.State → Prop

/-- The processor itself. -/
def machine (E : X86.Effect) : Engine := fun _ _ => X86.Step E

/-- What can happen next. `K` are the calls that have ended; the list are those that end now. -/
inductive Crew.Step (base : Nat) (R : Engine) (F : Host) (K : List Op) : Crew → List Op → Crew → Prop where
  /-- an instruction of the generated code -/
  | code {s s' j c} : ¬ Foreign base s.rip → R K c s s' → Crew.Step base R F K ⟨s, j, c⟩ [] ⟨s', j, c⟩
  /-- something outside of the generated code, on the same processor -/
  | host {s s' j c} : Foreign base s.rip → F s s' → Crew.Step base R F K ⟨s, j, c⟩ [] ⟨s', j, c⟩
  /-- any number of other processors store, but not to the code pages -/
  | other {r d m j c} : (∀ a, base ≤ a → a < base + 2 * PAGE_SIZE → m (BitVec.ofNat 64 a) = d.mem (BitVec.ofNat 64 a)) →
      Crew.Step base R F K ⟨⟨r, d⟩, j, c⟩ [] ⟨⟨r, { d with mem := m }⟩, j, c⟩
  /-- another processor begins a call -/
  | start {s j} (op : Op) : Crew.Step base R F K ⟨s, j, none⟩ [] ⟨s, j, some op⟩
  /-- stores of a call that is not a patch: the bytes may have any values before the call ends -/
  | store {r d m j op} : isPatch op = false → (∀ x : BitVec 64, ¬ Stores j op x.toNat → m x = d.mem x) →
      Crew.Step base R F K ⟨⟨r, d⟩, j, some op⟩ [] ⟨⟨r, { d with mem := m }⟩, j, some op⟩
  /-- the store of a patch, as far as it is in one line of the cache -/
  | patch {r d m j op} (line : Nat) : isPatch op = true →
      (∀ x : BitVec 64, x.toNat / LINE = line → Stores j op x.toNat → m x = (op.run (joined j d)).state.mem x.toNat) →
      (∀ x : BitVec 64, ¬ (x.toNat / LINE = line ∧ Stores j op x.toNat) → m x = d.mem x) →
      Crew.Step base R F K ⟨⟨r, d⟩, j, some op⟩ [] ⟨⟨r, { d with mem := m }⟩, j, some op⟩
  /-- the call ends: everything is stored (the data page may have been changed again) -/
  | finish {r d j op} : (∀ a, base ≤ a → a < base + 2 * PAGE_SIZE → Stores j op a → view d a = (op.run (joined j d)).state.mem a) →
      Crew.Step base R F K ⟨⟨r, d⟩, j, some op⟩ [op] ⟨⟨r, d⟩, (op.run (joined j d)).state, none⟩

/-- Execution; `Q` holds all the time. -/
inductive Crew.Run (base : Nat) (R : Engine) (F : Host) (Q : List Op → Option Op → X86.State → Prop) :
    List Op → Crew → List Op → Crew → Prop where
  | done {K p} : Q K p.call p.cpu → Crew.Run base R F Q K p K p
  | step {K p ops p' K'' p''} : Q K p.call p.cpu → Crew.Step base R F K p ops p' → Crew.Run base R F Q (K ++ ops) p' K'' p'' →
      Crew.Run base R F Q K p K'' p''

section
variable (base : Nat) (mem : Nat → Byte)

/-- The program `S`, that the calls `P` made complete, is there: since then code was only added, and a
    call in progress adds code. -/
def Present (K : List Op) (c : Option Op) (P S : List Op) : Prop :=
  Complete base mem P S ∧ (∀ op, c = some op → tame op = true) ∧ ∃ ops, K = P ++ ops ∧ ∀ op ∈ ops, tame op = true

/-- A patch is in progress, and the program is the one before or the one after it. -/
def Between (K : List Op) (c : Option Op) (P S : List Op) : Prop :=
  Complete base mem P S ∧ ∃ op, c = some op ∧ isPatch op = true ∧ (P = K ∨ P = K ++ [op])

/-- A step of the source: of a program that is there, or of one of the two that a patch in progress is
    between. -/
inductive Told (E : X86.Effect) (K : List Op) (c : Option Op) : X86.State → X86.State → Prop where
  | code {P S n d m d'} : Present base mem K c P S ∨ Between base mem K c P S → LiveStep base mem P S encoded E n d m d' →
      Told E K c ⟨placeW base mem P n, d⟩ ⟨placeW base mem P m, d'⟩
  /-- a return, or a jump or call to a computed address: not to a place of the program -/
  | leave {P S n d s i I} : Present base mem K c P S ∨ Between base mem K c P S →
      S[n]? = some (.inst i) → isDirect i = false → instrAt base mem P encoded n i = some I → I.isControl = true →
      X86.Exec E (placeW base mem P (n + 1)) I d s.rip s.data → Told E K c ⟨placeW base mem P n, d⟩ s

/-- The processor is outside, or at a statement of a program that is there, and what it does next leaves
    the code pages alone. -/
def Undisturbed (E : X86.Effect) (F : Host) (K : List Op) (c : Option Op) (s : X86.State) : Prop :=
  (Foreign base s.rip ∨ ∃ P S n i, Present base mem K c P S ∧ S[n]? = some (.inst i) ∧ placedLabel i = none ∧ isData i = false
    ∧ s.rip = placeW base mem P n)
  ∧ ∀ s', X86.Step E s s' ∨ F s s' → ∀ a, base ≤ a → a < base + 2 * PAGE_SIZE → view s'.data a = view s.data a

/-- The calls so far and the one in progress: none writes to what other calls have generated, and
    `finalize` does not panic half-way. -/
def Calm (K : List Op) (c : Option Op) : Prop :=
  NoRaw (K ++ c.toList) ∧ KeepsLabels (JitMemory.new base mem) (K ++ c.toList) ∧ ∀ op, c = some op → tame op = true

/-- The same with patches: one is made when the program is complete, it leaves a complete program, and the
    distance that it stores is in one line of the cache. -/
def Redirecting (E : X86.Effect) (F : Host) (K : List Op) (c : Option Op) (s : X86.State) : Prop :=
  (∃ op S S', c = some op ∧ isPatch op = true ∧ Complete base mem K S ∧ Complete base mem (K ++ [op]) S'
    ∧ (∀ a b, Overwrites (reach base mem K) op a → Overwrites (reach base mem K) op b → a / LINE = b / LINE)
    ∧ (Foreign base s.rip ∨ ∃ n i, S[n]? = some (.inst i) ∧ placedLabel i = none ∧ isData i = false ∧ s.rip = placeW base mem K n)
    ∧ ∀ s', X86.Step E s s' ∨ F s s' → ∀ a, base ≤ a → a < base + 2 * PAGE_SIZE → view s'.data a = view s.data a)
  ∨ Calm base mem K c ∧ Undisturbed base mem E F K c s

/-- The code pages hold what the calls that have ended have stored. Where the call in progress stores, it
    may hold anything, except that a patch has been made entirely or not at all. -/
def Holding (K : List Op) (c : Option Op) (d : X86.Data) : Prop :=
  match c with
  | none => Loaded base mem K d
  | some op => if isPatch op = true then Loaded base mem K d ∨ Loaded base mem (K ++ [op]) d
    else ∀ a, base ≤ a → a < base + 2 * PAGE_SIZE → ¬ Stores (reach base mem K) op a → view d a = (reach base mem K).mem a

end
end Spec
