import Verif.Model.Shuffle
import Verif.Model.FloatBits
/-
Which instruction-set and option macros a translation unit sees.
AR = /repo/dpm/detail/arch.hpp, CFG = /repo/dpm/detail/config.hpp, CM = /repo/CMakeLists.txt.
A line-by-line interpreter of the preprocessor conditionals, run on transcriptions of AR and of CFG:84-87.  A macro environment maps names
to values (a value-less macro has value 0).  Function-like `DPM_NOT_SSSE3(x)` is a macro with value 1 where it expands to its argument and
0 where it expands to nothing.  The attribute macros of CFG (exports, inlining, calling conventions) are not transcribed.
-/
namespace Dpm.Config
open Dpm.X86

abbrev Env := String → Option Int
def defd (e : Env) (s : String) : Bool := (e s).isSome

/-- `#if` expressions: `defined(s)`, `s >= n` (an undefined name counts as 0), `!`, `&&`, `||` -/
inductive Cond
  | defined (s : String)
  | ge (s : String) (n : Int)
  | not (a : Cond)
  | and (a b : Cond)
  | or (a b : Cond)
def Cond.eval (e : Env) : Cond → Bool
  | .defined s => defd e s
  | .ge s n => decide (n ≤ (e s).getD 0)
  | .not a => !a.eval e
  | .and a b => a.eval e && b.eval e
  | .or a b => a.eval e || b.eval e

/-- the directives used by AR and CFG -/
inductive Line
  | ifc (c : Cond)
  | els
  | endif
  | define (s : String) (v : Int)

/-- the environment and the stack of open conditionals: is the enclosing text kept, is this branch kept -/
structure PP where
  env : Env
  stack : List (Bool × Bool)
def PP.live (p : PP) : Bool := match p.stack with
  | [] => true
  | (_, b) :: _ => b
/-- [cpp.cond], [cpp.replace]: one line -/
def step (p : PP) : Line → PP
  | .ifc c => { p with stack := (p.live, p.live && c.eval p.env) :: p.stack }
  | .els => match p.stack with
    | (outer, b) :: r => { p with stack := (outer, outer && !b) :: r }
    | [] => p
  | .endif => { p with stack := p.stack.tail }
  | .define s v => { p with env := fun t => if p.live && t == s then some v else p.env t }
/-- the environment after a file -/
def preprocess (file : List Line) (e : Env) : Env := (file.foldl step ⟨e, []⟩).env

open Line Cond in
/-- AR:7-78, directive by directive -/
def archHpp : List Line := [
  -- AR:7-8
  ifc (or (defined "i386") (or (defined "__i386__") (or (defined "__i386") (or (defined "__x86_64__") (or (defined "_M_X86")
    (or (defined "_M_IX86") (defined "_M_X64"))))))),
  define "DPM_ARCH_X86" 0,
  -- AR:10-12
  ifc (or (defined "__SSE__") (or (and (defined "_M_IX86_FP") (ge "_M_IX86_FP" 1)) (or (defined "_M_AMD64") (defined "_M_X64")))),
  define "DPM_HAS_SSE" 0, endif,
  -- AR:14-16
  ifc (or (defined "__SSE2__") (or (and (defined "_M_IX86_FP") (ge "_M_IX86_FP" 2)) (or (defined "_M_AMD64") (defined "_M_X64")))),
  define "DPM_HAS_SSE2" 0, endif,
  -- AR:18-20
  ifc (defined "__SSE3__"), define "DPM_HAS_SSE3" 0, endif,
  -- AR:22-27
  ifc (defined "__SSSE3__"), define "DPM_HAS_SSSE3" 0, define "DPM_NOT_SSSE3" 0, els, define "DPM_NOT_SSSE3" 1, endif,
  -- AR:29-34
  ifc (defined "__SSE4_1__"), define "DPM_HAS_SSE4_1" 0, endif,
  ifc (defined "__SSE4_2__"), define "DPM_HAS_SSE4_2" 0, endif,
  -- AR:36-46
  ifc (defined "__AVX__"), define "DPM_HAS_AVX" 0,
  ifc (defined "_MSC_VER"), define "DPM_HAS_SSE3" 0, define "DPM_HAS_SSSE3" 0, define "DPM_HAS_SSE4_1" 0, define "DPM_HAS_SSE4_2" 0, endif, endif,
  -- AR:48-50
  ifc (defined "__FMA__"), define "DPM_HAS_FMA" 0, endif,
  -- AR:52-59
  ifc (defined "__AVX2__"), define "DPM_HAS_AVX2" 0,
  ifc (and (not (defined "DPM_HAS_FMA")) (defined "_MSC_VER")), define "DPM_HAS_FMA" 0, endif, endif,
  -- AR:61-77
  ifc (defined "__AVX512F__"), define "DPM_HAS_AVX512" 0, define "DPM_HAS_AVX512F" 0,
  ifc (defined "__AVX512CD__"), define "DPM_HAS_AVX512CD" 0, endif,
  ifc (defined "__AVX512BW__"), define "DPM_HAS_AVX512BW" 0, endif,
  ifc (defined "__AVX512DQ__"), define "DPM_HAS_AVX512DQ" 0, endif,
  ifc (defined "__AVX512VL__"), define "DPM_HAS_AVX512VL" 0, endif, endif,
  -- AR:90
  endif]

open Line Cond in
/-- CFG:8 includes AR; CFG:84-87 -/
def configHpp : List Line := archHpp ++ [
  ifc (and (defined "DPM_HANDLE_ERRORS") (not (defined "DPM_PROPAGATE_NAN"))), define "DPM_PROPAGATE_NAN" 0, endif]

/-- the macros a translation unit of the library, or one including its headers, sees -/
def unit (e : Env) : Env := preprocess configHpp e
/-- the instruction-set record the rest of the model takes as a parameter -/
def isaOf (e : Env) : ISA where
  sse3 := defd (unit e) "DPM_HAS_SSE3"
  ssse3 := defd (unit e) "DPM_HAS_SSSE3"
  sse41 := defd (unit e) "DPM_HAS_SSE4_1"
  avx := defd (unit e) "DPM_HAS_AVX"
  avx2 := defd (unit e) "DPM_HAS_AVX2"
  avx512vl := defd (unit e) "DPM_HAS_AVX512VL"
  avx512bw := defd (unit e) "DPM_HAS_AVX512BW"
  avx512dq := defd (unit e) "DPM_HAS_AVX512DQ"
/-- the option record the rest of the model takes as a parameter -/
def mathOptOf (e : Env) : MathOpt := ⟨defd (unit e) "DPM_PROPAGATE_NAN", defd (unit e) "DPM_HANDLE_ERRORS"⟩
def fmaOf (e : Env) : Bool := defd (unit e) "DPM_HAS_FMA"
/-- the constraint of the x86 `shuffle` overload of vectors and masks of the same ABI (type.hpp:215, type.hpp:726):
`DPM_NOT_SSSE3(sizeof(T) >= 4 &&) ...` -/
def shuffleOverloadOf (e : Env) (c : Cfg) : Bool := if (unit e "DPM_NOT_SSSE3").getD 0 = 1 then decide (4 ≤ c.T.bytes) else true

/-! ### the options of the build -/
/-- the CMake options of CM:5-30 -/
structure Options where
  inlineExt : Bool := true
  handleErr : Bool := true
  propNan : Bool := true
  svml : Bool := false
/-- `add_compile_definitions` of CM:10-30: added to the compilation of every target of this directory and its subdirectories, i.e. to the
library and its tests, on top of what the compiler predefines -/
def libraryEnv (o : Options) (e : Env) : Env := fun t =>
  if o.inlineExt && t == "DPM_INLINE_EXTENSIONS" then some 0
  else if o.handleErr && t == "DPM_HANDLE_ERRORS" then some 0
  else if o.propNan && t == "DPM_PROPAGATE_NAN" then some 0
  else if o.svml && t == "DPM_PROPAGATE_NAN" then some 0
  else e t
/-- a target of another directory that links the library: `target_include_directories` and `target_compile_features` (CM:54, 57) are PUBLIC,
the definitions are not part of the target's interface -/
def consumerEnv (_ : Options) (e : Env) : Env := e
end Dpm.Config
