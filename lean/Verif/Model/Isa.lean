/-
What the processor can do and how the library finds out, also when several threads ask at once: src/isadetection.c.
-/
namespace CRoaring

/-- What `cpuid` and `xgetbv` report: ECX of leaf 1, EBX and ECX of leaf 7, and XCR0. -/
structure Cpu where
  ecx1 : Nat
  ebx7 : Nat
  ecx7 : Nat
  xcr0 : Nat

/-- `enum croaring_instruction_set`: src/isadetection.c:81-97. -/
def ISA_AVX2 : Nat := 0x4
/-- src/isadetection.c:85. -/
def ISA_SSE42 : Nat := 0x8
/-- src/isadetection.c:86. -/
def ISA_PCLMULQDQ : Nat := 0x10
/-- src/isadetection.c:87. -/
def ISA_BMI1 : Nat := 0x20
/-- src/isadetection.c:88. -/
def ISA_BMI2 : Nat := 0x40
/-- src/isadetection.c:90. -/
def ISA_AVX512F : Nat := 0x100
/-- src/isadetection.c:91. -/
def ISA_AVX512DQ : Nat := 0x200
/-- src/isadetection.c:92. -/
def ISA_AVX512BW : Nat := 0x400
/-- src/isadetection.c:93. -/
def ISA_AVX512VBMI2 : Nat := 0x800
/-- src/isadetection.c:94. -/
def ISA_AVX512BITALG : Nat := 0x1000
/-- src/isadetection.c:95. -/
def ISA_AVX512VPOPCNTDQ : Nat := 0x2000
/-- `CROARING_UNINITIALIZED`: src/isadetection.c:96. -/
def ISA_UNINITIALIZED : Nat := 0x8000

/-- `CROARING_AVX512_REQUIRED`: src/isadetection.c:99-103. -/
def AVX512_REQUIRED : Nat :=
  ISA_AVX512F ||| ISA_AVX512DQ ||| ISA_AVX512BW ||| ISA_AVX512VBMI2 ||| ISA_AVX512BITALG ||| ISA_AVX512VPOPCNTDQ

/-- `if (reg & (1 << bit)) host_isa |= flag;`. -/
def addIsa (reg bit flag host : Nat) : Nat := if reg &&& (1 <<< bit) ≠ 0 then host ||| flag else host

/-- The part behind the test of the AVX-512 state: src/isadetection.c:223-247. -/
def detect512 (c : Cpu) (host : Nat) : Nat :=
  let host := addIsa c.ebx7 16 ISA_AVX512F host
  let host := addIsa c.ebx7 30 ISA_AVX512BW host
  let host := addIsa c.ebx7 17 ISA_AVX512DQ host
  let host := addIsa c.ecx7 6 ISA_AVX512VBMI2 host
  let host := addIsa c.ecx7 12 ISA_AVX512BITALG host
  addIsa c.ecx7 14 ISA_AVX512VPOPCNTDQ host

/-- The part behind the test of the AVX state: src/isadetection.c:203-249. -/
def detect7 (c : Cpu) (host : Nat) : Nat :=
  let host := addIsa c.ebx7 5 ISA_AVX2 host
  let host := addIsa c.ebx7 3 ISA_BMI1 host
  let host := addIsa c.ebx7 8 ISA_BMI2 host
  if ¬ (c.xcr0 &&& (7 <<< 5) = 7 <<< 5) then host else detect512 c host

/-- `dynamic_croaring_detect_supported_architectures`: src/isadetection.c:146-250. -/
def detectIsa (c : Cpu) : Nat :=
  if c.ecx1 &&& (1 <<< 20) ≠ 0 then
    let host := addIsa c.ecx1 1 ISA_PCLMULQDQ ISA_SSE42
    let osxsave := (1 <<< 26) ||| (1 <<< 27)
    if c.ecx1 &&& osxsave ≠ osxsave then host
    else if c.xcr0 &&& (1 <<< 2) = 0 then host
    else detect7 c host
  else 0

/-- How the library was compiled for x64: without AVX (`ROARING_DISABLE_AVX`), for AVX-512, for AVX2, or for any x64 processor; and whether the
compiler knows AVX-512 (`CROARING_COMPILER_SUPPORTS_AVX512`). -/
inductive Build where
  | disabled
  | avx512
  | avx2
  | plain
deriving DecidableEq

/-- `(isa & flags) == flags`. -/
def isaHas (isa flags : Nat) : Bool := isa &&& flags == flags

/-- `support` from the results of the two calls of `croaring_detect_supported_architectures`: src/isadetection.c:317-331. -/
def supportOf (compiler512 : Bool) (isa1 isa2 : Nat) : Nat :=
  (if isaHas isa1 ISA_AVX2 then 1 else 0) ||| (if compiler512 && isaHas isa2 AVX512_REQUIRED then 2 else 0)

/-- `croaring_hardware_support`, one thread: src/isadetection.c:281-332. -/
def hardwareSupport (b : Build) (compiler512 : Bool) (c : Cpu) : Nat :=
  match b with
  | .disabled => 0
  | .avx512 => 1 ||| 2
  | .avx2 => 1 ||| (if compiler512 && isaHas (detectIsa c) AVX512_REQUIRED then 2 else 0)
  | .plain => supportOf compiler512 (detectIsa c) (detectIsa c)

/-! ### Several threads -/

/-- The static variables: `buffer` of `croaring_detect_supported_architectures` and `support` of `croaring_hardware_support`. -/
structure IsaMem where
  buffer : Nat
  support : Nat

/-- Before the first call. -/
def IsaMem.init : IsaMem := { buffer := ISA_UNINITIALIZED, support := 0xFFFFFFF }

/-- Where a thread is in `croaring_hardware_support` (the build for any x64 processor: src/isadetection.c:309-332, and the C version of
`croaring_detect_supported_architectures`: 265-273).  Each step is one access to a static variable. -/
inductive IsaPc where
  /-- about to test `support == 0xFFFFFFF` -/
  | test
  /-- about to test `buffer == CROARING_UNINITIALIZED` in call `k` (1 or 2); `isa1` is the result of the first call -/
  | probe (second : Bool) (isa1 : Nat)
  /-- about to store into `buffer` -/
  | fill (second : Bool) (isa1 : Nat)
  /-- about to read `buffer` for the result -/
  | result (second : Bool) (isa1 : Nat)
  /-- about to store into `support` -/
  | store (v : Nat)
  /-- about to read `support` for the result -/
  | final
  /-- returned -/
  | done (v : Nat)
deriving DecidableEq

/-- After `croaring_detect_supported_architectures` returned `isa`. -/
def IsaPc.after (compiler512 second : Bool) (isa1 isa : Nat) : IsaPc :=
  if second then .store (supportOf compiler512 isa1 isa)
  else if compiler512 then .probe true isa
  else .store (supportOf compiler512 isa 0)

/-- One step of one thread. -/
def isaStep (c : Cpu) (compiler512 : Bool) (m : IsaMem) : IsaPc → IsaMem × IsaPc
  | .test => (m, if m.support = 0xFFFFFFF then .probe false 0 else .final)
  | .probe s i => (m, if m.buffer = ISA_UNINITIALIZED then .fill s i else .result s i)
  | .fill s i => ({ m with buffer := detectIsa c }, .result s i)
  | .result s i => (m, .after compiler512 s i m.buffer)
  | .store v => ({ m with support := v }, .final)
  | .final => (m, .done m.support)
  | .done v => (m, .done v)

/-- One step of thread `t`. -/
def isaStepAt (c : Cpu) (compiler512 : Bool) (s : IsaMem × List IsaPc) (t : Nat) : IsaMem × List IsaPc :=
  match s.2[t]? with
  | none => s
  | some pc => let r := isaStep c compiler512 s.1 pc; (r.1, s.2.set t r.2)

/-- `n` threads that call `croaring_hardware_support` for the first time, in the order given by the schedule. -/
def isaRun (c : Cpu) (compiler512 : Bool) (n : Nat) (sched : List Nat) : IsaMem × List IsaPc :=
  sched.foldl (isaStepAt c compiler512) (IsaMem.init, List.replicate n .test)

/-- Is a thread about to write `support`?  (In C++ and Windows C builds that variable is a plain `int`: src/isadetection.c:312-316.) -/
def IsaPc.writesSupport : IsaPc → Bool
  | .store _ => true
  | _ => false

/-- Is it about to read `support`? -/
def IsaPc.readsSupport : IsaPc → Bool
  | .test => true
  | .final => true
  | _ => false

end CRoaring
