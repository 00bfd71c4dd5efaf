import Verif.Model.Analyse
import Verif.Spec.Blocks

/-
Places of blocks in a script. `Part src s c t ct`: when `s` is analysed in the context `c`, its part `t`
is analysed in the context `ct`; `t` is not inside of a hypertag definition in `s`.
-/

namespace Verif
open Py

section
variable {P I : Type}

inductive Part (src : Source P I) : Stmt P → Ctx → Stmt P → Ctx → Prop
  | self (s c) : Part src s c s c
  | xblock {m mo b c t ct} : Part src b (leaveProlog b c) t ct → Part src (.xblock m mo b) c t ct
  | struct {tags b c t ct} : Part src b { c with regular := c.regular + 1 } t ct →
    Part src (.struct tags b) c t ct
  | branch {pre b post pre' c1 c t ct} :
    analyseBranches src pre { c with control := c.control + 1 } = .ok (pre', c1) →
    Part src b c1 t ct → Part src (.tryBlock (pre ++ b :: post)) c t ct
  | clause {pre e b post els pre' c1 c t ct} :
    analyseClauses src pre { c with control := c.control + 1 } = .ok (pre', c1) →
    Part src b c1 t ct → Part src (.ifBlock (pre ++ (e, some b) :: post) els) c t ct
  | ifElse {cs els cs' c1 c t ct} :
    analyseClauses src cs { c with control := c.control + 1 } = .ok (cs', c1) →
    Part src els c1 t ct → Part src (.ifBlock cs (some els)) c t ct
  | elseClause {b c t ct} : Part src b c t ct → Part src (.elseClause (some b)) c t ct
  | whileBody {e b els c t ct} : Part src b { c with control := c.control + 1 } t ct →
    Part src (.whileBlock e (some b) els) c t ct
  | whileElse {e b els b' c1 c t ct} :
    analyseOpt src b { c with control := c.control + 1 } = .ok (b', c1) →
    Part src els (Ctx.mergeBranch { c with control := c.control + 1 } c1) t ct →
    Part src (.whileBlock e b (some els)) c t ct
  | forBody {tg e b rest tg' c1 c t ct} :
    (analyseTarget tg { c with control := c.control + 1 } : Except (AErr I) _) = .ok (tg', c1) →
    Part src b c1 t ct → Part src (.forBlock tg e (b :: rest)) c t ct
  | child {pre s post pre' c1 c t ct} : analyseAll src pre c = .ok (pre', c1) →
    Part src s c1 t ct → Part src (.body (pre ++ s :: post)) c t ct

/-- The statement as created by the parser: it does not have any slots to write to, and neither have the
hypertags defined in it. -/
def Stmt.unanalysed (s : Stmt P) : Prop :=
  s.writes (· = none) ∧ ∀ d ∈ s.defs, d.2.writes (· = none)

/-- No variable or tag that is visible in `c` is in this slot. -/
def Ctx.Hidden (c : Ctx) (o : Option Slot) : Prop := ∀ b ∈ c.binds, o ≠ some b.2.id

end
end Verif
