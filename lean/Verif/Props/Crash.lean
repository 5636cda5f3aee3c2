import Verif.Props.Effects
import Verif.Props.Files
/-!
# Property C79: what a run leaves on disk, also when it fails or is killed
-/
set_option linter.unusedSectionVars false
namespace Seldon
open Spec Effects
variable {A F G S α β : Type}

section
variable [Zero F] [One F] [Sub F] [Mul F] [Add F] [Div F] [Neg F] [NatCast F] [IntCast F] [LT F] [LE F] [DecidableLT F] [DecidableLE F]
variable {W : World} {env : Env F G} {args : Program.Args} {d d' : Disk}

/-- C79: the process returns what the program computes from the contents that the input files have at its start, and writes exactly these files,
in this order, to the output directory — also if input files lie in the output directory. -/
theorem C79_refines (hc : W.canCreate args.outputDir = true) (fuel : Nat) (d : Disk) :
    (mainWith W env args fuel d).2 = (Program.main (onDisk W env d) args fuel).map (fun _ => ()) ∧
    ∀ files, Program.main (onDisk W env d) args fuel = .ok files → writes (mainWith W env args fuel d).1 = files.map (pathed args.outputDir) := by
  rcases mainWith_cases (env := env) hc fuel d with ⟨e, hs, hm⟩ | ⟨doc, options, k, m, -, -, -, -, -, hs, hm⟩
  · rw [hs.2, hm]
    exact ⟨rfl, fun files h => by cases h⟩
  · obtain ⟨fs, h1, h2⟩ := run_does W (Program.machine env k) (Program.render env k) args.outputDir options.output fuel m d
    have h2 := h2 []
    dsimp only at h2
    rw [hs.1, hs.2, hm, h1]
    revert h2
    cases Simulation.run (Program.machine env k) (Program.render env k) options.output fuel m with
    | error e =>
      cases (run W (Program.machine env k) (Program.render env k) args.outputDir options.output fuel m d).2 with
      | error e' => intro h2; cases h2; exact ⟨rfl, fun _ h => by cases h⟩
      | ok u => intro h2; cases h2
    | ok r =>
      cases (run W (Program.machine env k) (Program.render env k) args.outputDir options.output fuel m d).2 with
      | error e' => intro h2; cases h2
      | ok u =>
        intro h2
        refine ⟨rfl, fun files hf => ?_⟩
        cases hf
        have := congrArg Prod.snd (Except.ok.inj h2)
        simp only [List.nil_append] at this
        exact congrArg _ this.symm

/-- C79: whatever happens — the run completes, fails at some iteration, or is still going on after `fuel` iterations — the files written are those
wanted for the iterations made so far, in their order; a prefix of them only if the text of a file cannot be produced.  If the run does not start at all,
nothing is written. -/
theorem C79_history (hc : W.canCreate args.outputDir = true) (fuel : Nat) (d : Disk) :
    (writes (mainWith W env args fuel d).1 = [] ∧ ∃ e, (mainWith W env args fuel d).2 = .error e ∧
      Program.main (onDisk W env d) args fuel = .error e) ∨
    ∃ (options : Config.Options F) (k : AgentKind) (m : ModelState F G k) (K : Nat) (st : Nat → ModelState F G k)
      (ws : List (Wanted (Agent F k) F)), Begins W env args d options k m ∧
      IsRunSoFar (Program.machine env k) ((Program.machine env k).reset m) K st ∧ K ≤ fuel ∧
      ws <+: wanted options.output (fun i => Program.network (st i)) K ∧
      List.Forall₂ (FulfilsIn (Program.render env k) args.outputDir) (writes (mainWith W env args fuel d).1) ws ∧
      Ended (Program.machine env k) (Program.render env k) options.output fuel K st (ws = wanted options.output (fun i => Program.network (st i)) K)
        (mainWith W env args fuel d).2 := by
  rcases mainWith_cases (env := env) hc fuel d with ⟨e, hs, hm⟩ | ⟨doc, options, k, m, h1, h2, h3, h4, h5, hs, hm⟩
  · exact .inl ⟨by rw [hs.1]; rfl, e, by rw [hs.2]; rfl, hm⟩
  · obtain ⟨K, st, ws, g1, g2, g3, -, g5, g6, -⟩ := run_history (machine_counts env k) (machine_network env k) W (Program.render env k) args.outputDir
      options.output fuel m d
    refine .inr ⟨options, k, m, K, st, ws, ⟨⟨doc, h1, h2⟩, h3, h4, h5⟩, g1, g5, g2, ?_, ?_⟩
    · rw [hs.1]; exact g3
    · rw [hs.2]; exact g6

theorem resolve_nodup {R : Simulation.Render A F} {o : OutputSettings} {N : Nat → Network A F} {K : Nat} {dir : String} (hg : GoodDirectory W dir)
    {l : List (String × List Char)} {ws : List (Wanted A F)} (h : List.Forall₂ (FulfilsIn R dir) l ws) (hw : ws <+: wanted o N K) :
    (l.map fun w => W.resolve w.1).Nodup ∧ ∀ w ∈ l, W.canWrite w.1 = true := by
  have hpath : ∀ w ∈ l, ∃ name, w.1 = join dir name := by
    clear hw
    induction h with
    | nil => intro w hw; cases hw
    | cons h1 _ ih =>
      intro w hw
      rcases List.mem_cons.mp hw with rfl | hw
      · exact ⟨_, h1.1⟩
      · exact ih w hw
  refine ⟨?_, fun w hw => ?_⟩
  · have e : (l.map fun w => W.resolve w.1) = (l.map (·.1)).map W.resolve := by rw [List.map_map]; rfl
    rw [e]
    refine List.Nodup.map_on ?_ (FulfilsIn.nodup h hw)
    intro a ha b hb hab
    obtain ⟨w, hw, rfl⟩ := List.mem_map.mp ha
    obtain ⟨w', hw', rfl⟩ := List.mem_map.mp hb
    obtain ⟨x, hx⟩ := hpath w hw
    obtain ⟨y, hy⟩ := hpath w' hw'
    rw [hx, hy] at hab ⊢
    rw [hg.separate _ _ hab]
  · obtain ⟨x, hx⟩ := hpath w hw
    rw [hx]; exact hg.write x

/-- C79: kill the process at any moment — between two operations, or while it is writing a file.  Then either the disk is as it was, or: the files of
the iterations made so far are there, in the order in which they are wanted, up to some point; all but the last of them are complete; and every other
file is as it was. -/
theorem C79_kill (hg : GoodDirectory W args.outputDir) (fuel : Nat) (h : AfterKill W d (mainWith W env args fuel d).1 d') :
    d' = d ∨
    ∃ (options : Config.Options F) (k : AgentKind) (m : ModelState F G k) (K : Nat) (st : Nat → ModelState F G k)
      (ws : List (Wanted (Agent F k) F)) (whole cut : List (String × List Char)), Begins W env args d options k m ∧
      IsRunSoFar (Program.machine env k) ((Program.machine env k).reset m) K st ∧
      ws <+: wanted options.output (fun i => Program.network (st i)) K ∧
      List.Forall₂ (FulfilsIn (Program.render env k) args.outputDir) (whole ++ cut) ws ∧ LeftBehind W d d' whole cut := by
  rcases C79_history (env := env) hg.create fuel d with ⟨h1, -⟩ | ⟨options, k, m, K, st, ws, h1, h2, -, h3, h4, -⟩
  · left
    cases h with
    | between a b h =>
      rw [h, writes_append] at h1
      exact Disk.replay_quiet W (List.append_eq_nil_iff.mp h1).1
    | during a b path contents part h hp hw =>
      rw [h, writes_append] at h1
      cases (List.append_eq_nil_iff.mp h1).2
  · right
    obtain ⟨hn, hcw⟩ := resolve_nodup hg h4 h3
    obtain ⟨whole, cut, rest, e, hl⟩ := AfterKill.left h hn hcw
    rw [e] at h4
    obtain ⟨ws1, ws2, f1, -, rfl⟩ : ∃ ws1 ws2, List.Forall₂ (FulfilsIn (Program.render env k) args.outputDir) (whole ++ cut) ws1 ∧
        List.Forall₂ (FulfilsIn (Program.render env k) args.outputDir) rest ws2 ∧ ws = ws1 ++ ws2 :=
      ⟨_, _, (List.forall₂_take_append _ _ _ h4.flip).flip, (List.forall₂_drop_append _ _ _ h4.flip).flip, (List.take_append_drop _ _).symm⟩
    exact ⟨options, k, m, K, st, ws1, whole, cut, h1, h2, (List.prefix_append _ _).trans h3, f1, hl⟩

/-- C79: when the process ends — after completing its run, or with an exception — the files it has written are complete, and every other file is as it
was. -/
theorem C79_disk (hg : GoodDirectory W args.outputDir) (fuel : Nat) (d : Disk) :
    LeftBehind W d (d.replay W (mainWith W env args fuel d).1) (writes (mainWith W env args fuel d).1) [] := by
  refine ⟨by simp, ?_, by simp, fun x hx => Disk.replay_other W (fun w hw => hx w (by simpa using hw))⟩
  intro w hw
  rcases C79_history (env := env) hg.create fuel d with ⟨h1, -⟩ | ⟨options, k, m, K, st, ws, h1, h2, -, h3, h4, -⟩
  · rw [h1] at hw; cases hw
  · obtain ⟨hn, hcw⟩ := resolve_nodup hg h4 h3
    exact Disk.replay_written W hn hw (hcw w hw)

/-- C79: if the program does not get as far as running the simulation — unreadable or invalid configuration, unreadable or invalid input file, directory that
cannot be created — no file changes. -/
theorem C79_rejected (fuel : Nat) (d : Disk) (h : W.canCreate args.outputDir = false ∨ ¬ ∃ options k m, Begins W env args d options k m) :
    d.replay W (mainWith W env args fuel d).1 = d ∧ ∃ e, (mainWith W env args fuel d).2 = .error e := by
  by_cases hc : W.canCreate args.outputDir = true
  · have h : ¬ ∃ options k m, Begins W env args d options k m := h.resolve_left (by rw [hc]; exact Bool.noConfusion)
    rcases C79_history (env := env) hc fuel d with ⟨h1, e, h2, -⟩ | ⟨options, k, m, K, st, ws, h1, -⟩
    · exact ⟨Disk.replay_quiet W h1, e, h2⟩
    · exact absurd ⟨options, k, m, h1⟩ h
  · unfold mainWith
    rw [Proc.print_bind, Proc.bind_error (t := []) (e := .exn "filesystem_error")]
    · exact ⟨Disk.replay_quiet W (by rw [List.append_nil]; exact writes_print _), _, rfl⟩
    · unfold createDirectories; rw [if_neg hc]; rfl

end

/-! ### Two worlds, two lengths -/

/-- A process that does not look at the disk. -/
def Effects.Blind (p p' : Proc α) : Prop := ∀ d d', p d = p' d'

theorem Effects.Blind.bind {W W' : World} {p p' : Proc α} {f f' : α → Proc β} (h : Blind p p') (hf : ∀ a, Blind (f a) (f' a)) :
    Blind (Proc.bind W p f) (Proc.bind W' p' f') := by
  intro d d'
  have e : p d = p' d' := h d d'
  rcases e2 : p' d' with ⟨t, r⟩
  rw [e2] at e
  cases r with
  | error x => rw [Proc.bind_error e, Proc.bind_error e2]
  | ok a => rw [Proc.bind_ok e, Proc.bind_ok e2, hf a (d.replay W t) (d'.replay W' t)]

theorem Effects.Blind.lift (r : Res α) : Blind (Proc.lift r) (Proc.lift r) := fun _ _ => rfl
theorem Effects.Blind.event (e : Event) : Blind (Proc.event e) (Proc.event e) := fun _ _ => rfl

/-- Once the simulation has been constructed, the program does not look at the disk. -/
theorem Effects.run_blind {W W' : World} (hd : W'.duration = W.duration) (ht : W'.total = W.total) (M : Machine A F S) (R : Simulation.Render A F)
    (dir : String) (o : OutputSettings) (fuel : Nat) (s : S) : Blind (run W M R dir o fuel s) (run W' M R dir o fuel s) := by
  have wo : ∀ N k, Blind (writeOpinions W R dir N k) (writeOpinions W' R dir N k) := fun N k => (Blind.lift _).bind fun _ => Blind.event _
  have wn : ∀ N k, Blind (writeNetwork W R dir N k) (writeNetwork W' R dir N k) := fun N k => (Blind.lift _).bind fun _ => Blind.event _
  have loop : ∀ fuel s, Blind (runLoop W M R dir o fuel s) (runLoop W' M R dir o fuel s) := by
    intro fuel
    induction fuel with
    | zero =>
      intro s
      unfold runLoop
      split
      · exact Blind.lift _
      · exact Blind.lift _
    | succ fuel ih =>
      intro s
      unfold runLoop
      split
      · exact Blind.lift _
      · refine (Blind.lift _).bind fun s => Blind.bind ?_ fun _ => Blind.bind ?_ fun _ => Blind.bind ?_ fun _ => ih s
        · unfold progress progressLine
          rw [hd]
          split
          · exact Blind.event _
          · exact Blind.lift _
        · refine (Blind.lift _).bind fun b => ?_
          cases b
          · exact Blind.lift _
          · exact wo _ _
        · refine (Blind.lift _).bind fun b => ?_
          cases b
          · exact Blind.lift _
          · exact wn _ _
  unfold run
  refine Blind.bind (fun _ _ => rfl) fun _ => Blind.bind ?_ fun _ => (loop fuel _).bind fun s => ?_
  · unfold initialOutput
    split
    · exact (wn _ _).bind fun _ => wo _ _
    · exact Blind.lift _
  · unfold endLines
    rw [ht]
    exact fun _ _ => rfl

/-- After a process that writes nothing, it is the same disk. -/
theorem Effects.bind_quiet2 {W W' : World} {p p' : Proc α} {f f' : α → Proc β} {d d' : Disk} (h : p d = p' d') (hw : writes (p d).1 = [])
    (hf : ∀ a, p d = ((p d).1, .ok a) → f a d = f' a d') : Proc.bind W p f d = Proc.bind W' p' f' d' := by
  rcases e2 : p' d' with ⟨t, r⟩
  rw [e2] at h
  rw [h] at hw hf
  cases r with
  | error x => rw [Proc.bind_error h, Proc.bind_error e2]
  | ok a => rw [Proc.bind_ok h, Proc.bind_ok e2, Disk.replay_quiet W hw, Disk.replay_quiet W' hw, hf a rfl]

theorem Effects.bind_quiet {W W' : World} {p p' : Proc α} {f f' : α → Proc β} {d : Disk} (h : p d = p' d) (hw : writes (p d).1 = [])
    (hf : ∀ a, f a d = f' a d) : Proc.bind W p f d = Proc.bind W' p' f' d := bind_quiet2 h hw fun a _ => hf a

section
variable [Zero F] [One F] [Sub F] [Mul F] [Add F] [Div F] [Neg F] [NatCast F] [IntCast F] [LT F] [LE F] [DecidableLT F] [DecidableLE F]
variable {W : World} {env : Env F G} {args : Program.Args} {d d' : Disk}

omit [Zero F] [One F] [Sub F] [Mul F] [Add F] [Div F] [Neg F] [NatCast F] [IntCast F] [LT F] [LE F] [DecidableLT F] [DecidableLE F] in
theorem Effects.warning_world (W W' : World) {k : AgentKind} (options : Config.Options F) (N : Network (Agent F k) F) (d d' : Disk) :
    warning W options N d = warning W' options N d' ∧ writes (warning W options N d).1 = [] := by
  have key : ∀ (N : Network (SimpleAgent F) F), (Proc.bind W (Proc.lift (Tarjan.scc N N.neighbours.length)) fun comps =>
      if comps.length ≠ 1 then Proc.event (.print (warningLine comps.length)) else Proc.lift (.ok ())) d =
      (Proc.bind W' (Proc.lift (Tarjan.scc N N.neighbours.length)) fun comps =>
      if comps.length ≠ 1 then Proc.event (.print (warningLine comps.length)) else Proc.lift (.ok ())) d' ∧
      writes ((Proc.bind W (Proc.lift (Tarjan.scc N N.neighbours.length)) fun comps =>
      if comps.length ≠ 1 then Proc.event (.print (warningLine comps.length)) else Proc.lift (.ok ())) d).1 = [] := by
    intro N
    rw [Proc.lift_bind, Proc.lift_bind]
    cases Tarjan.scc N N.neighbours.length with
    | error e => exact ⟨rfl, rfl⟩
    | ok comps =>
      dsimp only
      by_cases hc : comps.length ≠ 1
      · rw [if_pos hc]; exact ⟨rfl, rfl⟩
      · rw [if_neg hc]; exact ⟨rfl, rfl⟩
  unfold warning
  cases options.model <;> cases options.settings <;> cases k <;> first | exact key N | exact ⟨rfl, rfl⟩

/-- Which files can be written makes no difference to what the program does. -/
theorem Effects.mainWith_canWrite (W : World) (env : Env F G) (args : Program.Args) (fuel : Nat) (d : Disk) (c : String → Bool) :
    mainWith { W with canWrite := c } env args fuel d = mainWith W env args fuel d := by
  unfold mainWith
  refine bind_quiet rfl (writes_print _) fun _ => bind_quiet rfl ?_ fun _ => bind_quiet rfl rfl fun doc => bind_quiet rfl rfl fun options =>
    bind_quiet rfl rfl fun _ => bind_quiet rfl (writes_print _) fun _ => bind_quiet rfl (writes_print _) fun _ => bind_quiet rfl rfl fun k =>
    bind_quiet ?_ ?_ fun m => run_blind (W := { W with canWrite := c }) (W' := W) rfl rfl _ _ _ _ _ _ d d
  · unfold createDirectories
    split <;> rfl
  · unfold construct
    refine bind_quiet ?_ (createNetwork_quiet _ env k options args.network _ d).1 fun r => bind_quiet ?_ (chooseModel_quiet _ env k options r.1 r.2 d).1 fun m => ?_
    · unfold createNetwork
      cases Program.networkFile args.network options.network.file with
      | none => rfl
      | some file => exact bind_quiet rfl rfl fun contents => bind_quiet rfl rfl fun N => rfl
    · unfold chooseModel
      refine bind_quiet ?_ ?_ fun _ => rfl
      · exact (warning_world _ W options r.1 d d).1
      · exact (warning_world _ W options r.1 d d).2
    · unfold replaceAgents
      cases args.agents with
      | none => rfl
      | some file => exact bind_quiet rfl rfl fun contents => bind_quiet rfl rfl fun as => rfl
  · exact (construct_quiet _ env k options args.network args.agents d).1

theorem Effects.replay_unwritable {W : World} (hw : ∀ p, W.canWrite p = false) (t : List Event) (d : Disk) : d.replay W t = d := by
  induction t generalizing d with
  | nil => rfl
  | cons e t ih =>
    have hs : Disk.replay W d (e :: t) = (Disk.step W d e).replay W t := rfl
    rw [hs, ih]
    cases e with
    | write p c => unfold Disk.step; dsimp only; rw [hw p]; rfl
    | print s => rfl
    | error s => rfl
    | mkdir s => rfl
    | read s => rfl

/-- C79: the program never notices that it cannot write: if no file can be opened for writing, it prints the same, ends with the same result as if everything could
be written — and leaves no file. -/
theorem C79_silent (W : World) (env : Env F G) (args : Program.Args) (fuel : Nat) (d : Disk) :
    let W' := { W with canWrite := fun _ => false }
    (mainWith W' env args fuel d).2 = (mainWith W env args fuel d).2 ∧ printed (mainWith W' env args fuel d).1 = printed (mainWith W env args fuel d).1 ∧
    d.replay W' (mainWith W' env args fuel d).1 = d := by
  intro W'
  rw [mainWith_canWrite]
  exact ⟨rfl, rfl, replay_unwritable (fun _ => rfl) _ _⟩

/-- `q` does the same as `p`, or continues it where `p` is cut off. -/
def Effects.Extends (p q : Proc α) : Prop := ∀ d, q d = p d ∨ (p d).2 = .error .fuel ∧ (p d).1 <+: (q d).1

omit [Zero F] [One F] [Sub F] [Mul F] [Add F] [Div F] [Neg F] [NatCast F] [IntCast F] [LT F] [LE F] [DecidableLT F] [DecidableLE F] in
theorem Effects.Extends.refl (p : Proc α) : Extends p p := fun _ => .inl rfl

theorem Effects.Extends.bind_right {p : Proc α} {f f' : α → Proc β} (hf : ∀ a, Extends (f a) (f' a)) : Extends (Proc.bind W p f) (Proc.bind W p f') := by
  intro d
  rcases e : p d with ⟨t, r⟩
  cases r with
  | error x => left; rw [Proc.bind_error e, Proc.bind_error e]
  | ok a =>
    rw [Proc.bind_ok e, Proc.bind_ok e]
    rcases hf a (d.replay W t) with h | ⟨h1, h2⟩
    · left; rw [h]
    · right; exact ⟨h1, (List.prefix_append_right_inj _).mpr h2⟩

theorem Effects.Extends.bind_left {p p' : Proc α} {f : α → Proc β} (h : Extends p p') : Extends (Proc.bind W p f) (Proc.bind W p' f) := by
  intro d
  rcases h d with h | ⟨h1, h2⟩
  · left; unfold Proc.bind; rw [h]
  · right
    rcases e : p d with ⟨t, r⟩
    rw [e] at h1 h2
    dsimp only at h1 h2
    subst h1
    rw [Proc.bind_error e]
    refine ⟨rfl, ?_⟩
    rcases e' : p' d with ⟨t', r'⟩
    rw [e'] at h2
    cases r' with
    | error x => rw [Proc.bind_error e']; exact h2
    | ok a => rw [Proc.bind_ok e']; exact h2.trans (List.prefix_append _ _)

omit [Zero F] [One F] [Sub F] [Mul F] [Add F] [Div F] [Neg F] [NatCast F] [IntCast F] [LT F] [LE F] [DecidableLT F] [DecidableLE F] in
theorem Effects.runLoop_extends (M : Machine A F S) (R : Simulation.Render A F) (dir : String) (o : OutputSettings) (fuel : Nat) (s : S) :
    Extends (runLoop W M R dir o fuel s) (runLoop W M R dir o (fuel + 1) s) := by
  induction fuel generalizing s with
  | zero =>
    intro d
    by_cases hf : M.finished s = true
    · left; unfold runLoop; rw [if_pos hf, if_pos hf]
    · right
      conv => enter [1]; unfold runLoop
      rw [if_neg hf]
      refine ⟨rfl, ?_⟩
      conv => enter [1]; unfold runLoop
      rw [if_neg hf]
      exact List.nil_prefix
  | succ fuel ih =>
    by_cases hf : M.finished s = true
    · intro d; left; unfold runLoop; rw [if_pos hf, if_pos hf]
    · have e : ∀ fuel, runLoop W M R dir o (fuel + 1) s = Proc.bind W (Proc.lift (M.iteration s)) fun s =>
          Proc.bind W (progress W o (M.nIterations s)) fun _ =>
          Proc.bind W (outputOpinions W R dir o (M.network s) (M.nIterations s)) fun _ =>
          Proc.bind W (outputNetwork W R dir o (M.network s) (M.nIterations s)) fun _ =>
          runLoop W M R dir o fuel s := by
        intro fuel
        conv_lhs => unfold runLoop
        rw [if_neg hf]
      rw [e, e (fuel + 1)]
      exact .bind_right fun s => .bind_right fun _ => .bind_right fun _ => .bind_right fun _ => ih s

/-- C79: looking at more iterations only adds to what the process does: it does the same, or its history goes on where it was cut off.  So a run that does not
end has one history, of which all finite parts are given here. -/
theorem C79_monotone (W : World) (env : Env F G) (args : Program.Args) (fuel : Nat) (d : Disk) :
    mainWith W env args (fuel + 1) d = mainWith W env args fuel d ∨
    (mainWith W env args fuel d).2 = .error .fuel ∧ (mainWith W env args fuel d).1 <+: (mainWith W env args (fuel + 1) d).1 := by
  have h : Extends (mainWith W env args fuel) (mainWith W env args (fuel + 1)) := by
    unfold mainWith run
    exact .bind_right fun _ => .bind_right fun _ => .bind_right fun _ => .bind_right fun _ => .bind_right fun _ => .bind_right fun _ => .bind_right fun _ =>
      .bind_right fun _ => .bind_right fun _ => .bind_right fun _ => .bind_right fun _ => .bind_left (runLoop_extends _ _ _ _ _ _)
  exact h d

/-- C79: the exit code.  With arguments that cannot be parsed the program prints the message to standard error, exits with 1 and touches nothing; otherwise it
exits with 0 if and only if it completes, and in all other cases the exception is not caught. -/
theorem C79_exit (W : World) (env : Env F G) (argv : List String) (fuel : Nat) (d : Disk) :
    (∀ message, W.arguments argv = .error message → main W env argv fuel d = ([.error message], .ok 1)) ∧
    (∀ args, W.arguments argv = .ok args → (main W env argv fuel d).1 = (mainWith W env args fuel d).1 ∧
      (main W env argv fuel d).2 = (mainWith W env args fuel d).2.map (fun _ => 0)) := by
  unfold main
  constructor
  · intro message h
    rw [h]
    rfl
  · intro args h
    rw [h]
    dsimp only
    rcases e : mainWith W env args fuel d with ⟨t, r⟩
    cases r with
    | error x => rw [Proc.bind_error e]; exact ⟨rfl, rfl⟩
    | ok a => rw [Proc.bind_ok e]; exact ⟨List.append_nil t, rfl⟩

end
end Seldon
