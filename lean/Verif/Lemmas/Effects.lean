import Verif.Spec.Effects
import Verif.Lemmas.Simulation
import Verif.Lemmas.Program
/-!
# Lemmas about processes with effects
-/
set_option linter.unusedSectionVars false
namespace Seldon
open Spec
variable {α β A F S : Type}

namespace Spec
theorem writes_append (a b : List Event) : writes (a ++ b) = writes a ++ writes b := List.filterMap_append
theorem printed_append (a b : List Event) : printed (a ++ b) = printed a ++ printed b := List.filterMap_append
theorem reads_append (a b : List Event) : reads (a ++ b) = reads a ++ reads b := List.filterMap_append
theorem writes_nil : writes [] = [] := rfl
theorem printed_nil : printed [] = [] := rfl
theorem reads_nil : reads [] = [] := rfl

theorem writes_print (l : List (List Char)) : writes (l.map .print) = [] := by
  induction l with
  | nil => rfl
  | cons a l ih => exact ih

theorem printed_print (l : List (List Char)) : printed (l.map .print) = l := by
  induction l with
  | nil => rfl
  | cons a l ih => simp only [List.map_cons]; unfold printed at ih ⊢; rw [List.filterMap_cons]; simp only; rw [ih]

theorem reads_print (l : List (List Char)) : reads (l.map .print) = [] := by
  induction l with
  | nil => rfl
  | cons a l ih => exact ih
end Spec

namespace Disk
theorem replay_append (W : World) (d : Disk) (a b : List Event) : d.replay W (a ++ b) = (d.replay W a).replay W b := List.foldl_append

/-- Only the writes matter. -/
theorem replay_quiet (W : World) {d : Disk} {t : List Event} (h : writes t = []) : d.replay W t = d := by
  induction t generalizing d with
  | nil => rfl
  | cons e t ih =>
    cases e with
    | write p c => cases h
    | print s => exact ih h
    | error s => exact ih h
    | mkdir s => exact ih h
    | read s => exact ih h

/-- A file that is not written is unchanged. -/
theorem replay_other (W : World) {d : Disk} {t : List Event} {x : String} (h : ∀ w ∈ writes t, W.resolve w.1 ≠ x) : d.replay W t x = d x := by
  induction t generalizing d with
  | nil => rfl
  | cons e t ih =>
    have hs : Disk.replay W d (e :: t) = (Disk.step W d e).replay W t := rfl
    rw [hs, ih (fun w hw => h w (by cases e <;> first | exact hw | exact List.mem_cons_of_mem _ hw))]
    cases e with
    | write p c =>
      unfold Disk.step
      dsimp only
      split
      · exact if_neg (fun hx : x = W.resolve p => h (p, c) List.mem_cons_self hx.symm)
      · rfl
    | print s => rfl
    | error s => rfl
    | mkdir s => rfl
    | read s => rfl

/-- A file that is written once has the contents written. -/
theorem replay_written (W : World) {d : Disk} {t : List Event} (hn : ((writes t).map fun w => W.resolve w.1).Nodup) {w : String × List Char}
    (hw : w ∈ writes t) (hc : W.canWrite w.1 = true) : d.replay W t (W.resolve w.1) = some w.2 := by
  induction t generalizing d with
  | nil => cases hw
  | cons e t ih =>
    have hs : Disk.replay W d (e :: t) = (Disk.step W d e).replay W t := rfl
    rw [hs]
    cases e with
    | write p c =>
      have e1 : writes (.write p c :: t) = (p, c) :: writes t := rfl
      rw [e1] at hn hw
      rw [List.map_cons, List.nodup_cons] at hn
      rcases List.mem_cons.mp hw with rfl | hw
      · rw [replay_other W (fun w' hw' he => hn.1 (List.mem_map.mpr ⟨w', hw', he⟩))]
        unfold Disk.step
        dsimp only at hc ⊢
        rw [if_pos hc, if_pos rfl]
      · exact ih hn.2 hw
    | print s => exact ih hn hw
    | error s => exact ih hn hw
    | mkdir s => exact ih hn hw
    | read s => exact ih hn hw
end Disk

namespace Proc

theorem bind_ok {W : World} {p : Proc α} {f : α → Proc β} {d : Disk} {t : List Event} {a : α} (h : p d = (t, .ok a)) :
    bind W p f d = (t ++ (f a (d.replay W t)).1, (f a (d.replay W t)).2) := by
  unfold bind
  rw [h]

theorem bind_error {W : World} {p : Proc α} {f : α → Proc β} {d : Disk} {t : List Event} {e : Fault} (h : p d = (t, .error e)) :
    bind W p f d = (t, .error e) := by
  unfold bind
  rw [h]

theorem lift_bind {W : World} (r : Res α) (f : α → Proc β) (d : Disk) :
    bind W (lift r) f d = match r with | .ok a => f a d | .error e => ([], .error e) := by
  cases r with
  | ok a =>
    rw [bind_ok (t := []) (a := a) rfl]
    rfl
  | error e => rw [bind_error (t := []) (e := e) rfl]

theorem print_bind {W : World} (l : List (List Char)) (f : Unit → Proc β) (d : Disk) :
    bind W (printAll l) f d = (l.map Event.print ++ (f () d).1, (f () d).2) := by
  rw [bind_ok (t := l.map Event.print) (a := ()) rfl, Disk.replay_quiet W (writes_print l)]

end Proc

namespace Effects

/-- A file written to directory `dir`. -/
def pathed (dir : String) (w : FileWrite) : String × List Char := (join dir w.name, w.contents)

/-- `p` does with effects what `q` does to the list of files written. -/
def Does (dir : String) (p : Proc α) (q : List FileWrite → Res (α × List FileWrite)) : Prop :=
  ∀ d, ∃ fs : List FileWrite, writes (p d).1 = fs.map (pathed dir) ∧ ∀ tr, q tr = (p d).2.map fun a => (a, tr ++ fs)

theorem Does.lift (dir : String) (r : Res α) : Does dir (Proc.lift r) (fun tr => r.map fun a => (a, tr)) :=
  fun _ => ⟨[], rfl, fun tr => by simp only [List.append_nil]; rfl⟩

theorem Does.print (dir : String) (l : List (List Char)) : Does dir (Proc.printAll l) (fun tr => .ok ((), tr)) :=
  fun _ => ⟨[], writes_print l, fun tr => by simp only [List.append_nil]; rfl⟩

theorem Does.bind {W : World} {dir : String} {p : Proc α} {q : List FileWrite → Res (α × List FileWrite)} {f : α → Proc β}
    {g : α → List FileWrite → Res (β × List FileWrite)} (h : Does dir p q) (hf : ∀ a, Does dir (f a) (g a)) :
    Does dir (Proc.bind W p f) (fun tr => do let r ← q tr; g r.1 r.2) := by
  intro d
  obtain ⟨fs, h1, h2⟩ := h d
  rcases e : p d with ⟨t, r⟩
  rw [e] at h1 h2
  cases r with
  | error x =>
    refine ⟨fs, by rw [Proc.bind_error e]; exact h1, fun tr => ?_⟩
    rw [Proc.bind_error e]
    dsimp only
    rw [h2 tr]
    rfl
  | ok a =>
    obtain ⟨fs', h1', h2'⟩ := hf a (d.replay W t)
    refine ⟨fs ++ fs', ?_, fun tr => ?_⟩
    · rw [Proc.bind_ok e]
      dsimp only at h1 ⊢
      rw [writes_append, h1, h1', List.map_append]
    · rw [Proc.bind_ok e]
      dsimp only
      rw [h2 tr]
      show g a (tr ++ fs) = _
      rw [h2' (tr ++ fs)]
      simp only [List.append_assoc]

theorem Does.congr {dir : String} {p : Proc α} {q q' : List FileWrite → Res (α × List FileWrite)} (h : Does dir p q) (e : ∀ tr, q tr = q' tr) :
    Does dir p q' := fun d => by
  obtain ⟨fs, h1, h2⟩ := h d
  exact ⟨fs, h1, fun tr => by rw [← e, h2]⟩

theorem writeOpinions_does (W : World) (R : Simulation.Render A F) (dir : String) (N : Network A F) (k : Nat) :
    Does dir (writeOpinions W R dir N k) (fun tr => (Simulation.writeOpinions R N k tr).map fun tr => ((), tr)) := by
  intro d
  unfold writeOpinions Simulation.writeOpinions
  rw [Proc.lift_bind]
  cases AgentIO.toFile R.agents N.agents with
  | error e => exact ⟨[], rfl, fun tr => rfl⟩
  | ok c => exact ⟨[⟨Simulation.opinionsName k, c⟩], rfl, fun tr => rfl⟩

theorem writeNetwork_does (W : World) (R : Simulation.Render A F) (dir : String) (N : Network A F) (k : Nat) :
    Does dir (writeNetwork W R dir N k) (fun tr => (Simulation.writeNetwork R N k tr).map fun tr => ((), tr)) := by
  intro d
  unfold writeNetwork Simulation.writeNetwork
  rw [Proc.lift_bind]
  cases NetworkIO.toFile R.text N with
  | error e => exact ⟨[], rfl, fun tr => rfl⟩
  | ok c => exact ⟨[⟨Simulation.networkName k, c⟩], rfl, fun tr => rfl⟩

theorem outputOpinions_does (W : World) (R : Simulation.Render A F) (dir : String) (o : OutputSettings) (N : Network A F) (k : Nat) :
    Does dir (outputOpinions W R dir o N k) (fun tr => (Simulation.outputOpinions R o N k tr).map fun tr => ((), tr)) := by
  intro d
  unfold outputOpinions Simulation.outputOpinions
  rw [Proc.lift_bind]
  cases Simulation.due o.nOutputAgents o.startOutput k with
  | error e => exact ⟨[], rfl, fun tr => rfl⟩
  | ok b =>
    cases b with
    | false => exact ⟨[], rfl, fun tr => by simp only [List.append_nil]; rfl⟩
    | true => exact writeOpinions_does W R dir N _ d

theorem outputNetwork_does (W : World) (R : Simulation.Render A F) (dir : String) (o : OutputSettings) (N : Network A F) (k : Nat) :
    Does dir (outputNetwork W R dir o N k) (fun tr => (Simulation.outputNetwork R o N k tr).map fun tr => ((), tr)) := by
  intro d
  unfold outputNetwork Simulation.outputNetwork
  rw [Proc.lift_bind]
  cases Simulation.due o.nOutputNetwork o.startOutput k with
  | error e => exact ⟨[], rfl, fun tr => rfl⟩
  | ok b =>
    cases b with
    | false => exact ⟨[], rfl, fun tr => by simp only [List.append_nil]; rfl⟩
    | true => exact writeNetwork_does W R dir N _ d

theorem progress_does (W : World) (dir : String) (o : OutputSettings) (k : Nat) : Does dir (progress W o k) (fun tr => .ok ((), tr)) := by
  intro d
  unfold progress
  split
  · exact ⟨[], rfl, fun tr => by simp only [List.append_nil]; rfl⟩
  · exact ⟨[], rfl, fun tr => by simp only [List.append_nil]; rfl⟩

theorem runLoop_does (W : World) (M : Machine A F S) (R : Simulation.Render A F) (dir : String) (o : OutputSettings) (fuel : Nat) (s : S) :
    Does dir (runLoop W M R dir o fuel s) (fun tr => Simulation.runLoop M R o fuel (s, tr)) := by
  induction fuel generalizing s with
  | zero =>
    unfold runLoop
    by_cases hf : M.finished s = true
    · rw [if_pos hf]
      refine (Does.lift dir (.ok s)).congr fun tr => ?_
      unfold Simulation.runLoop
      rw [if_pos hf]; rfl
    · rw [if_neg hf]
      refine (Does.lift dir (.error .fuel)).congr fun tr => ?_
      unfold Simulation.runLoop
      rw [if_neg hf]; rfl
  | succ fuel ih =>
    unfold runLoop
    by_cases hf : M.finished s = true
    · rw [if_pos hf]
      refine (Does.lift dir (.ok s)).congr fun tr => ?_
      unfold Simulation.runLoop
      rw [if_pos hf]; rfl
    · rw [if_neg hf]
      refine ((Does.lift dir (M.iteration s)).bind fun s' => ((progress_does W dir o (M.nIterations s')).bind fun _ =>
        (outputOpinions_does W R dir o (M.network s') (M.nIterations s')).bind fun _ =>
        (outputNetwork_does W R dir o (M.network s') (M.nIterations s')).bind fun _ => ih s')).congr fun tr => ?_
      conv_rhs => unfold Simulation.runLoop
      rw [if_neg hf]
      cases M.iteration s with
      | error e => rfl
      | ok s' =>
        unfold Simulation.output
        show (do
          let r ← (Simulation.outputOpinions R o (M.network s') (M.nIterations s') tr).map fun tr => ((), tr)
          let r ← (Simulation.outputNetwork R o (M.network s') (M.nIterations s') r.2).map fun tr => ((), tr)
          Simulation.runLoop M R o fuel (s', r.2)) = (do
          let tr ← (do
            let tr ← Simulation.outputOpinions R o (M.network s') (M.nIterations s') tr
            Simulation.outputNetwork R o (M.network s') (M.nIterations s') tr)
          Simulation.runLoop M R o fuel (s', tr))
        cases Simulation.outputOpinions R o (M.network s') (M.nIterations s') tr with
        | error e => rfl
        | ok tr1 =>
          show (do
            let r ← (Simulation.outputNetwork R o (M.network s') (M.nIterations s') tr1).map fun tr => ((), tr)
            Simulation.runLoop M R o fuel (s', r.2)) = (do
            let tr ← Simulation.outputNetwork R o (M.network s') (M.nIterations s') tr1
            Simulation.runLoop M R o fuel (s', tr))
          cases Simulation.outputNetwork R o (M.network s') (M.nIterations s') tr1 with
          | error e => rfl
          | ok tr2 => rfl

theorem initialOutput_does (W : World) (R : Simulation.Render A F) (dir : String) (o : OutputSettings) (N : Network A F) :
    Does dir (initialOutput W R dir o N) (fun tr => (Simulation.initialOutput R o N).map fun fs => ((), tr ++ fs)) := by
  unfold initialOutput Simulation.initialOutput
  by_cases hb : o.outputInitial = true
  · rw [if_pos hb, if_pos hb]
    refine ((writeNetwork_does W R dir N o.startNumberingFrom).bind fun _ => writeOpinions_does W R dir N o.startNumberingFrom).congr fun tr => ?_
    unfold Simulation.writeNetwork Simulation.writeOpinions
    cases NetworkIO.toFile R.text N with
    | error e => rfl
    | ok c =>
      cases AgentIO.toFile R.agents N.agents with
      | error e => rfl
      | ok c' =>
        show Except.ok ((), (tr ++ _) ++ _) = Except.ok ((), tr ++ _)
        rw [List.append_assoc]
        rfl
  · rw [if_neg hb, if_neg hb]
    exact (Does.lift dir (.ok ())).congr fun tr => by show Except.ok ((), tr) = Except.ok ((), tr ++ []); rw [List.append_nil]

/-- `run` with effects writes what `Simulation.run` says. -/
theorem run_does (W : World) (M : Machine A F S) (R : Simulation.Render A F) (dir : String) (o : OutputSettings) (fuel : Nat) (s : S) :
    Does dir (run W M R dir o fuel s) (fun tr => (Simulation.run M R o fuel s).map fun r => ((), tr ++ r.2)) := by
  unfold run
  intro d
  rw [Proc.print_bind]
  have h := (initialOutput_does W R dir o (M.network s)).bind (W := W) fun _ =>
    (runLoop_does W M R dir o fuel (M.reset s)).bind (W := W) fun s => Does.print dir (endLines W (M.nIterations s))
  obtain ⟨fs, h1, h2⟩ := h d
  refine ⟨fs, ?_, fun tr => ?_⟩
  · dsimp only
    rw [writes_append, writes_print]
    exact h1
  · dsimp only
    rw [← h2 tr]
    -- the accumulator only grows
    unfold Simulation.run
    cases Simulation.initialOutput R o (M.network s) with
    | error e => rfl
    | ok fs0 =>
      obtain ⟨fs1, -, g⟩ := runLoop_does W M R dir o fuel (M.reset s) d
      show (Simulation.runLoop M R o fuel (M.reset s, fs0)).map _ = (do
        let r ← Simulation.runLoop M R o fuel (M.reset s, tr ++ fs0)
        .ok ((), r.2))
      dsimp only at g
      rw [g fs0, g (tr ++ fs0)]
      cases (runLoop W M R dir o fuel (M.reset s) d).2 with
      | error e => rfl
      | ok s' => show Except.ok _ = Except.ok _; rw [List.append_assoc]

/-- `p` writes nothing and returns `r`. -/
def Quiet (p : Proc α) (d : Disk) (r : Res α) : Prop := writes (p d).1 = [] ∧ (p d).2 = r

theorem Quiet.lift (r : Res α) (d : Disk) : Quiet (Proc.lift r) d r := ⟨rfl, rfl⟩

theorem Quiet.bind {W : World} {p : Proc α} {f : α → Proc β} {d : Disk} {r : Res α} {g : α → Res β} (h : Quiet p d r)
    (hf : ∀ a, r = .ok a → Quiet (f a) d (g a)) : Quiet (Proc.bind W p f) d (do let a ← r; g a) := by
  rcases e : p d with ⟨t, r'⟩
  unfold Quiet at h
  rw [e] at h
  obtain ⟨h1, h2⟩ := h
  dsimp only at h1 h2
  subst h2
  cases r' with
  | error x => unfold Quiet; rw [Proc.bind_error e]; exact ⟨h1, rfl⟩
  | ok a =>
    obtain ⟨g1, g2⟩ := hf a rfl
    unfold Quiet
    rw [Proc.bind_ok e, Disk.replay_quiet W h1]
    dsimp only
    rw [writes_append, h1, g1]
    exact ⟨rfl, g2⟩

theorem Quiet.congr {p : Proc α} {d : Disk} {r r' : Res α} (h : Quiet p d r) (e : r = r') : Quiet p d r' := by rw [← e]; exact h

section
variable {G : Type} [Zero F] [One F] [Add F] [Div F]

theorem createNetwork_quiet (W : World) (env : Env F G) (k : AgentKind) (options : Config.Options F) (cli : Option String) (g : G) (d : Disk) :
    Quiet (createNetwork W env k options cli g) d (Program.createNetwork (onDisk W env d) k options cli g) := by
  unfold createNetwork Program.createNetwork
  cases Program.networkFile cli options.network.file with
  | none => exact Quiet.lift _ d
  | some file =>
    have h1 : Quiet (Proc.readFile W file) d (Program.getFileContents (onDisk W env d) file) := by
      refine ⟨rfl, ?_⟩
      unfold Proc.readFile Program.getFileContents onDisk
      dsimp only
      cases d (W.resolve file) <;> rfl
    exact h1.bind fun contents _ => (Quiet.lift (NetworkIO.fromFile env.text contents) d).bind fun N _ => Quiet.lift _ d

end

section
variable {G : Type} [Zero F] [One F] [Sub F] [Mul F] [Add F] [Div F] [Neg F] [NatCast F]

theorem chooseModel_onDisk (W : World) (env : Env F G) (d : Disk) (k : AgentKind) (options : Config.Options F) (N : Network (Agent F k) F) (g : G) :
    Program.chooseModel (onDisk W env d) k options N g = Program.chooseModel env k options N g := by
  unfold Program.chooseModel
  cases options.model <;> cases options.settings <;> cases k <;> rfl

theorem chooseModel_quiet (W : World) (env : Env F G) (k : AgentKind) (options : Config.Options F) (N : Network (Agent F k) F) (g : G) (d : Disk) :
    Quiet (chooseModel W env k options N g) d (Program.chooseModel (onDisk W env d) k options N g) := by
  rw [chooseModel_onDisk]
  unfold chooseModel
  have hq : Quiet (warning W options N) d (.ok ()) ∨ ∃ e, Quiet (warning W options N) d (.error e) ∧ Program.chooseModel env k options N g = .error e := by
    unfold warning
    split
    · rename_i s N hm hs
      cases hscc : Tarjan.scc N N.neighbours.length with
      | error e =>
        right
        refine ⟨e, ?_, ?_⟩
        · unfold Quiet; rw [Proc.lift_bind]; exact ⟨rfl, rfl⟩
        · unfold Program.chooseModel
          rw [hm, hs]
          show (do let (m, _) ← DeGroot.create s.maxIterations s.tol N; .ok (ModelState.deGroot m) : Res (ModelState F G .simple)) = _
          have : DeGroot.create s.maxIterations s.tol N = .error e := by
            unfold DeGroot.create
            rw [hscc]; rfl
          rw [this]; rfl
      | ok comps =>
        left
        by_cases hc : comps.length ≠ 1
        · unfold Quiet; rw [Proc.lift_bind]
          show writes ((if comps.length ≠ 1 then Proc.event (Event.print (warningLine comps.length)) else Proc.lift (Except.ok ())) d).1 = [] ∧ _
          rw [if_pos hc]
          refine ⟨rfl, ?_⟩
          show ((if comps.length ≠ 1 then Proc.event (Event.print (warningLine comps.length)) else Proc.lift (Except.ok ())) d).2 = _
          rw [if_pos hc]; rfl
        · unfold Quiet; rw [Proc.lift_bind]
          show writes ((if comps.length ≠ 1 then Proc.event (Event.print (warningLine comps.length)) else Proc.lift (Except.ok ())) d).1 = [] ∧ _
          rw [if_neg hc]
          refine ⟨rfl, ?_⟩
          show ((if comps.length ≠ 1 then Proc.event (Event.print (warningLine comps.length)) else Proc.lift (Except.ok ())) d).2 = _
          rw [if_neg hc]; rfl
    · exact .inl (Quiet.lift _ d)
  rcases hq with hq | ⟨e, hq, he⟩
  · exact (hq.bind fun _ _ => Quiet.lift (Program.chooseModel env k options N g) d).congr rfl
  · exact (hq.bind fun _ _ => Quiet.lift (Program.chooseModel env k options N g) d).congr (by rw [he]; rfl)

theorem replaceAgents_quiet (W : World) (env : Env F G) {k : AgentKind} (cli : Option String) (m : ModelState F G k) (d : Disk) :
    Quiet (replaceAgents W env cli m) d (Program.replaceAgents (onDisk W env d) cli m) := by
  unfold replaceAgents Program.replaceAgents
  cases cli with
  | none => exact Quiet.lift _ d
  | some file =>
    have h1 : Quiet (Proc.readFile W file) d (Program.getFileContents (onDisk W env d) file) := by
      refine ⟨rfl, ?_⟩
      unfold Proc.readFile Program.getFileContents onDisk
      dsimp only
      cases d (W.resolve file) <;> rfl
    exact h1.bind fun contents _ => (Quiet.lift (AgentIO.fromFile (Program.format env.text k) contents) d).bind fun N _ => Quiet.lift _ d

theorem construct_quiet (W : World) (env : Env F G) (k : AgentKind) (options : Config.Options F) (cliN cliA : Option String) (d : Disk) :
    Quiet (construct W env k options cliN cliA) d (Program.construct (onDisk W env d) k options cliN cliA) := by
  unfold construct Program.construct
  exact (createNetwork_quiet W env k options cliN (env.seed options.rngSeed) d).bind fun r _ =>
    (chooseModel_quiet W env k options r.1 r.2 d).bind fun m _ => replaceAgents_quiet W env cliA m d

end

end Effects
end Seldon
