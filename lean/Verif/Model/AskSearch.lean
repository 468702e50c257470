import Verif.Model.AskFull

/-!
# What the acquisition search evaluates (`acquisition/optim/__init__.py:75-124`)

Ghost variables only: the points at which a restart of `Verif.Model.innerRun` calls the acquisition function.
-/
namespace Verif.Model

variable {G : Type*}

/-- acquisition/optim/__init__.py:98-124: the points at which restart `k` of the search for candidate `i` calls the acquisition
function, in this order.  Those of L-BFGS-B are not modelled. -/
noncomputable def innerLog (e : AskEnv G) (ks : List Kind) (i k : ℕ) (b : ℤ) : List Row :=
  let d := e.draws ks.length i k
  match e.algo with
  | .bfgs => []
  | .onePlusOne =>
    let cfg := cmaCfgOf e ks i b
    ((cmaInit cfg (cmaSample cfg d.start) 0).map (fun s0 =>
      (cmaRun cfg d.steps (cfg.maxFEs + 1) 0 s0).1.told.map (fun c => vectorRow c.x))).getD []
  | .mies =>
    let cfg := miesCfgOf e ks i b
    ((sampleFree e.rng e.fresh e.seed ks 4 d.gen).bind (fun rows =>
      (miesInit cfg (sampledRows rows.1)).map (fun s0 =>
        match miesLoop cfg d.flat d.noise (cfg.maxEval + 2) s0 with
        | .done s => s.evaluated.map Prod.fst
        | _ => []))).getD []

end Verif.Model
