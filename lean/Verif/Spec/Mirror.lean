import Verif.Props.Invariance
import Verif.Spec.Optimizer

/-!
# The mirrored optimization

Minimizing becomes maximizing, and everything that is a fitness has the other sign. User-supplied conditions and reporters are those which see the mirror image of what they are shown.
-/

namespace Spot

def Lin.mirror (t : Lin) : Lin := ⟨t.slope.neg, t.intercept.neg⟩

def Vis.mirror (v : Vis) : Vis :=
  { v with
    info := v.info.opposite, bestFitness := v.bestFitness.neg, curFitness := v.curFitness.neg, curFitnesses := v.curFitnesses.map Dbl.neg
    history := v.history.map Dbl.neg, trend := v.trend.mirror }

def Cond.mirror : Cond → Cond
  | .target t => .target t.neg
  | .predicted f a m => .predicted f.neg a m
  | .custom w a t => .custom w a (fun v => t v.mirror)
  | c => c

def Event.mirror : Event → Event
  | .newBest p f => .newBest p f.neg
  | .postEvaluate pop fs nb => .postEvaluate pop (fs.map Dbl.neg) nb
  | e => e

/-- A callback and what the reporter can see at that time. -/
def mirrorCall (e : Event × Vis) : Event × Vis := (e.1.mirror, e.2.mirror)

def mirrorThrows (t : List (Event × Vis) → Bool) (l : List (Event × Vis)) : Bool := t (l.map mirrorCall)

def Rep.mirror (r : Rep) : Rep := { throws := mirrorThrows r.throws, got := r.got.map mirrorCall }

def Opt.mirror (s : Opt) : Opt :=
  { vis := s.vis.mirror, conds := s.conds.map Cond.mirror, stopped := s.stopped, reps := s.reps.map Rep.mirror, log := s.log.map mirrorCall }

def In.mirror (i : In) : In := { i with res := i.res.map (Option.map Dbl.neg) }

def Op.mirror : Op → Op
  | .step i => .step i.mirror
  | .addCond c => .addCond c.mirror
  | .addRep t => .addRep (mirrorThrows t)
  | o => o

/-- Numerical functions that do not depend on the sign of the fitnesses: rounding to `float` is symmetric, the regression of the negated fitnesses is the negated line. -/
structure OptEnv.Odd (E : OptEnv) : Prop where
  toFloat : ∀ x, E.toFloat x.neg = (E.toFloat x).neg
  regress : ∀ k l, E.regress k (l.map Dbl.neg) = (E.regress k l).mirror
  evalLin : ∀ t n, E.evalLin t.mirror n = (E.evalLin t n).neg
  relSlope : ∀ t a b, E.relSlope t.mirror a b = (E.relSlope t a b).neg

end Spot
