/-
Model of utils/tb_writer.py: the buffering shim under the TensorBoard record writer.
-/
import Mathlib.Data.List.Basic

namespace Verif.Utils

abbrev Byte := Nat

/-- What the environment does with one `inner.write(data)` call: it succeeds, or raises after
having put the first `k` bytes of the data in the file (`k = 0`: an atomic failure). -/
inductive WriteOut where
  | ok
  | raise (k : Nat)
deriving Repr, DecidableEq

/-- The real file below the shim: the chunks it received (one per `inner.write` call, so the
file's content is their concatenation), the number of `inner.flush()` calls that returned, and
whether `inner.close()` has been called. -/
structure Inner where
  chunks : List (List Byte)
  flushes : Nat
  closed : Bool
deriving Repr, DecidableEq

/-- The bytes in the file. -/
def Inner.content (i : Inner) : List Byte := i.chunks.flatten

/-- utils/tb_writer.py:34-38 `_BufferedFileLike.__init__`. -/
structure Shim where
  inner : Inner
  buf : List Byte
  capacity : Nat
deriving Repr, DecidableEq

/-- Result of a call. -/
inductive Res where
  | ret (n : Nat)     -- `write` returned `n`
  | done              -- `flush`/`close` returned
  | raised
deriving Repr, DecidableEq

/-- `inner.write(data)` in the environment outcome `o`; a closed file raises without writing.
Returns the file and whether the call returned normally. -/
def Inner.write (i : Inner) (data : List Byte) (o : WriteOut) : Inner × Bool :=
  if i.closed then (i, false)
  else match o with
    | .ok => ({ i with chunks := i.chunks ++ [data] }, true)
    | .raise k => ({ i with chunks := i.chunks ++ [data.take k] }, false)

/-- utils/tb_writer.py:46-49 `_drain`: nothing for an empty buffer; otherwise one
`inner.write(bytes(buf))`, and the buffer is cleared only if that returned. -/
def Shim.drain (s : Shim) (o : WriteOut) : Shim × Bool :=
  if s.buf = [] then (s, true)
  else
    let r := s.inner.write s.buf o
    if r.2 then ({ s with inner := r.1, buf := [] }, true)
    else ({ s with inner := r.1 }, false)

/-- utils/tb_writer.py:40-44 `write`. -/
def Shim.write (s : Shim) (data : List Byte) (o : WriteOut) : Shim × Res :=
  let s1 := { s with buf := s.buf ++ data }
  if s1.capacity ≤ s1.buf.length then
    let r := s1.drain o
    if r.2 then (r.1, .ret data.length) else (r.1, .raised)
  else (s1, .ret data.length)

/-- utils/tb_writer.py:51-53 `flush`: `_drain` then `inner.flush()` (`okFlush`: whether the
environment lets it return; it raises on a closed file). -/
def Shim.flush (s : Shim) (o : WriteOut) (okFlush : Bool) : Shim × Res :=
  let r := s.drain o
  if r.2 then
    if okFlush && !r.1.inner.closed then
      ({ r.1 with inner := { r.1.inner with flushes := r.1.inner.flushes + 1 } }, .done)
    else (r.1, .raised)
  else (r.1, .raised)

/-- utils/tb_writer.py:55-59 `close`: `try: _drain() finally: inner.close()`. `inner.close()` is
modelled as always returning (closing twice is harmless). -/
def Shim.close (s : Shim) (o : WriteOut) : Shim × Res :=
  let r := s.drain o
  ({ r.1 with inner := { r.1.inner with closed := true } }, if r.2 then .done else .raised)

/-- One call made by the record writer above the shim, with the environment's outcomes. -/
inductive Op where
  | write (data : List Byte) (o : WriteOut)
  | flush (o : WriteOut) (okFlush : Bool)
  | close (o : WriteOut)
deriving Repr, DecidableEq

def Shim.step (s : Shim) : Op → Shim × Res
  | .write d o => s.write d o
  | .flush o f => s.flush o f
  | .close o => s.close o

/-- A whole history of calls; the caller may go on after an exception. -/
def Shim.run (s : Shim) : List Op → Shim
  | [] => s
  | op :: ops => (s.step op).1.run ops

/-- The shim as `buffer_tensorboard_writer` (utils/tb_writer.py:69-85) installs it over an open
file: empty buffer. -/
def Shim.init (inner : Inner) (capacity : Nat) : Shim := ⟨inner, [], capacity⟩

end Verif.Utils
