import Verif.Model.Buffer
import Verif.PyStr

/-!
# Model of `Buffer.__str__`, `coral/coord.py`
-/
namespace Coral
namespace Buffer
variable {α : Type}

/-- coord.py:58-60: the loop with its variables `i` and `seq`; `end` is `self.e`. It may not end. -/
inductive StrLoop (b : Buffer α) : Nat → List (Option α) → Py (List (Option α)) → Prop
  | done {i seq} : i = b.e → StrLoop b i seq (.ok seq)
  | step {i seq o r} : i ≠ b.e → pyIndex b.buf (i &&& b.m1 : Nat) = .ok o → StrLoop b (b.inc i) (seq ++ [o]) r → StrLoop b i seq r
  | raise {i seq e} : i ≠ b.e → pyIndex b.buf (i &&& b.m1 : Nat) = .error e → StrLoop b i seq (.error e)

/-- coord.py:51-61: `str(b)`, given `str` of what is in the slots. -/
inductive Shows (str : Option α → Str) (b : Buffer α) : Py Str → Prop
  | empty : b.isempty = true → Shows str b (.ok ['<', '>'])
  | full {seq} : b.isempty = false → StrLoop b b.s [] (.ok seq) → Shows str b (.ok ('<' :: pyJoin ' ' (seq.map str) ++ ['>']))
  | raise {e} : b.isempty = false → StrLoop b b.s [] (.error e) → Shows str b (.error e)

/-- The buffer after a sequence of calls. -/
def after (b : Buffer α) : List (BufOp α) → Buffer α
  | [] => b
  | op :: ops => (b.exec op).2.after ops

end Buffer
end Coral
