import Verif.Model.OutBuf
/-
What is expected of an output buffer (C121): it is a list of bytes to which others are appended, and a mark that something was left out.
-/
namespace Pvxs.Spec.OutBuf
open Pvxs.OutBuf

/-- A buffer, seen as the bytes written to it so far. -/
structure View (σ : Type) where
  out : σ → List Byte
  err : σ → Bool
  /-- no request for memory is going to be refused -/
  plenty : σ → Prop

/-- of a VectorOutBuf: up to `consumed()` -/
def vecView : View Vec where
  out s := s.written
  err s := s.err
  plenty s := ∀ a ∈ s.answers, a = true

/-- of an EvOutBuf: what is in the evbuffer, and then what is in the block which is not part of it yet -/
def evView : View Ev where
  out s := s.backing ++ (s.block.map (·.1)).getD []
  err s := s.err
  plenty s := ∀ a ∈ s.answers, a ≠ none

end Pvxs.Spec.OutBuf
