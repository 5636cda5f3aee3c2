import Verif.Lemmas.History
import Verif.Props.Simulation
import Verif.Props.Program
import Verif.Props.DeGroot
import Verif.Props.Deffuant
import Verif.Props.Activity
/-!
# C79: what a process leaves on disk, also when it fails or is killed
-/
set_option linter.unusedSectionVars false
namespace Seldon
open Spec Effects
variable {A F G S α β : Type}

namespace Effects

/-- `p` writes the same files and has the same result as `q`. -/
def Same (p q : Proc α) (d : Disk) : Prop := writes (p d).1 = writes (q d).1 ∧ (p d).2 = (q d).2

theorem Same.trans {p q r : Proc α} {d : Disk} (h : Same p q d) (h' : Same q r d) : Same p r d := ⟨h.1.trans h'.1, h.2.trans h'.2⟩

theorem Quiet.same_ok {W : World} {p : Proc α} {f : α → Proc β} {d : Disk} {a : α} (h : Quiet p d (.ok a)) : Same (Proc.bind W p f) (f a) d := by
  rcases e : p d with ⟨t, r'⟩
  unfold Quiet at h
  rw [e] at h
  obtain ⟨h1, h2⟩ := h
  dsimp only at h1 h2
  subst h2
  unfold Same
  rw [Proc.bind_ok e, Disk.replay_quiet W h1]
  dsimp only
  rw [writes_append, h1]
  exact ⟨rfl, rfl⟩

theorem Quiet.same_error {W : World} {p : Proc α} {f : α → Proc β} {d : Disk} {x : Fault} (h : Quiet p d (.error x)) :
    Same (Proc.bind W p f) (Proc.lift (.error x)) d := by
  rcases e : p d with ⟨t, r'⟩
  unfold Quiet at h
  rw [e] at h
  obtain ⟨h1, h2⟩ := h
  dsimp only at h1 h2
  subst h2
  unfold Same
  rw [Proc.bind_error e]
  exact ⟨h1, rfl⟩

theorem Quiet.print (l : List (List Char)) (d : Disk) : Quiet (Proc.printAll l) d (.ok ()) := ⟨writes_print l, rfl⟩

section
variable [Zero F] [One F] [Sub F] [Mul F] [Add F] [Div F] [Neg F] [NatCast F] [IntCast F] [LT F] [LE F] [DecidableLT F] [DecidableLE F]

theorem readConfig_quiet (W : World) (env : Env F G) (file : String) (d : Disk) :
    Quiet (readConfig W env file) d (Program.readConfig (onDisk W env d) file) := by
  refine ⟨rfl, ?_⟩
  unfold readConfig Program.readConfig onDisk
  dsimp only
  cases (d (W.resolve file)).bind env.toml <;> rfl

/-- The part of `main` before the simulation runs: it either fails without writing anything, or goes on to `run`. -/
theorem mainWith_cases {W : World} {env : Env F G} {args : Program.Args} (hc : W.canCreate args.outputDir = true) (fuel : Nat) (d : Disk) :
    (∃ e, Same (mainWith W env args fuel) (Proc.lift (.error e)) d ∧ Program.main (onDisk W env d) args fuel = .error e) ∨
    ∃ (doc : Config.Doc F) (options : Config.Options F) (k : AgentKind) (m : ModelState F G k),
      Program.readConfig (onDisk W env d) args.configFile = .ok doc ∧ Config.parse env.convert env.fresh doc = .ok options ∧
      Config.validate options = .ok () ∧ Program.agentKind options = .ok k ∧
      Program.construct (onDisk W env d) k options args.network args.agents = .ok m ∧
      Same (mainWith W env args fuel) (run W (Program.machine env k) (Program.render env k) args.outputDir options.output fuel m) d ∧
      Program.main (onDisk W env d) args fuel =
        (Simulation.run (Program.machine env k) (Program.render env k) options.output fuel m).map (·.2) := by
  have hmk : Quiet (createDirectories W args.outputDir) d (.ok ()) := by
    unfold createDirectories
    rw [if_pos hc]
    exact ⟨rfl, rfl⟩
  unfold mainWith Program.main
  have s0 := fun f : Unit → Proc Unit => (Quiet.print (bannerLines args) d).same_ok (W := W) (f := f)
  have s1 := fun f : Unit → Proc Unit => hmk.same_ok (W := W) (f := f)
  have s2 := readConfig_quiet W env args.configFile d
  cases e2 : Program.readConfig (onDisk W env d) args.configFile with
  | error x =>
    rw [e2] at s2
    exact .inl ⟨x, ((s0 _).trans (s1 _)).trans s2.same_error, rfl⟩
  | ok doc =>
    rw [e2] at s2
    have s3 := fun f : Config.Options F → Proc Unit => s2.same_ok (W := W) (f := fun doc => Proc.bind W (Proc.lift (Config.parse env.convert env.fresh doc)) f)
    rw [Res.bind_ok]
    cases e3 : Config.parse env.convert env.fresh doc with
    | error x =>
      refine .inl ⟨x, (((s0 _).trans (s1 _)).trans (s3 _)).trans ?_, ?_⟩
      · rw [e3]; exact (Quiet.lift (.error x) d).same_error
      · show (Config.parse env.convert env.fresh doc >>= _) = _
        rw [e3, Res.bind_error]
    | ok options =>
      have s4 : ∀ f : Config.Options F → Proc Unit, Same (Proc.bind W (Proc.lift (Config.parse env.convert env.fresh doc)) f) (f options) d := by
        intro f
        rw [e3]; exact (Quiet.lift (.ok options) d).same_ok
      have hp : ∀ g : Config.Options F → Res (List FileWrite),
          (Config.parse (onDisk W env d).convert (onDisk W env d).fresh doc >>= g) = g options := by
        intro g
        show (Config.parse env.convert env.fresh doc >>= g) = _
        rw [e3, Res.bind_ok]
      rw [hp]
      cases e5 : Config.validate options with
      | error x =>
        refine .inl ⟨x, ((((s0 _).trans (s1 _)).trans (s3 _)).trans (s4 _)).trans ?_, rfl⟩
        rw [e5]; exact (Quiet.lift (.error x) d).same_error
      | ok u =>
        have s5 : ∀ f : Unit → Proc Unit, Same (Proc.bind W (Proc.lift (Config.validate options)) f) (f ()) d := by
          intro f
          rw [e5]; exact (Quiet.lift (.ok u) d).same_ok
        have s6 := fun f : Unit → Proc Unit => (Quiet.print (Console.settings env.text options) d).same_ok (W := W) (f := f)
        have s7 := fun f : Unit → Proc Unit => (Quiet.print (inputLines args) d).same_ok (W := W) (f := f)
        rw [Res.bind_ok]
        cases e8 : Program.agentKind options with
        | error x =>
          refine .inl ⟨x, (((((((s0 _).trans (s1 _)).trans (s3 _)).trans (s4 _)).trans (s5 _)).trans (s6 _)).trans (s7 _)).trans ?_, rfl⟩
          rw [e8]; exact (Quiet.lift (.error x) d).same_error
        | ok k =>
          have s8 : ∀ f : AgentKind → Proc Unit, Same (Proc.bind W (Proc.lift (Program.agentKind options)) f) (f k) d := by
            intro f
            rw [e8]; exact (Quiet.lift (.ok k) d).same_ok
          have s9 := construct_quiet W env k options args.network args.agents d
          rw [Res.bind_ok]
          unfold Program.simulate
          cases e9 : Program.construct (onDisk W env d) k options args.network args.agents with
          | error x =>
            rw [e9] at s9
            exact .inl ⟨x, ((((((((s0 _).trans (s1 _)).trans (s3 _)).trans (s4 _)).trans (s5 _)).trans (s6 _)).trans (s7 _)).trans (s8 _)).trans s9.same_error, rfl⟩
          | ok m =>
            rw [e9] at s9
            refine .inr ⟨doc, options, k, m, rfl, e3, e5, e8, e9, ((((((((s0 _).trans (s1 _)).trans (s3 _)).trans (s4 _)).trans (s5 _)).trans (s6 _)).trans (s7 _)).trans (s8 _)).trans s9.same_ok, ?_⟩
            show (do
              let (_, files) ← Simulation.run (Program.machine env k) (Program.render env k) options.output fuel m
              .ok files) = _
            cases Simulation.run (Program.machine env k) (Program.render env k) options.output fuel m <;> rfl

end

/-! ## The history of a run -/

theorem join_inj {dir : String} {a b : List Char} (h : join dir a = join dir b) : a = b := by
  unfold join at h
  split at h
  · have := congrArg String.toList h
    simp only [String.toList_ofList] at this
    exact List.append_cancel_left this
  · have := congrArg String.toList h
    simp only [String.toList_ofList] at this
    have := List.append_cancel_left this
    exact (List.cons.inj this).2

/-- The wanted files have different paths. -/
theorem FulfilsIn.nodup {R : Simulation.Render A F} {dir : String} {o : OutputSettings} {N : Nat → Network A F} {K : Nat} {l : List (String × List Char)}
    {ws : List (Wanted A F)} (h : List.Forall₂ (FulfilsIn R dir) l ws) (hw : ws <+: wanted o N K) : (l.map (·.1)).Nodup := by
  have e : l.map (·.1) = (ws.map (fun q => (q.kind, q.number))).map (fun p => join dir (fileName p.1 p.2)) := by
    rw [List.map_map]
    clear hw
    induction h with
    | nil => rfl
    | cons h1 _ ih => simp only [List.map_cons, ih, Function.comp]; rw [h1.1]
  rw [e]
  refine List.Nodup.map_on ?_ ((wanted_nodup o N K).sublist (hw.sublist.map _))
  intro a _ b _ hab
  have := Simulation.fileName_inj (join_inj hab)
  exact Prod.ext this.1 this.2

theorem endLines_eq (W : World) (k : Nat) : endLines W k = closingLines W k (.ok ()) := by
  simp [endLines, closingLines, rule, textLine, List.replicate]

/-- The initial output. -/
theorem initialOutput_cases (W : World) (R : Simulation.Render A F) (dir : String) (o : OutputSettings) (N : Network A F) (d : Disk) :
    (∃ t e ws, initialOutput W R dir o N d = (t, .error e) ∧ Simulation.initialOutput R o N = .error e ∧ ws <+: wantedInitially o N ∧
      List.Forall₂ (FulfilsIn R dir) (writes t) ws ∧ reads t = [] ∧ printed t = []) ∨
    ∃ t, initialOutput W R dir o N d = (t, .ok ()) ∧ List.Forall₂ (FulfilsIn R dir) (writes t) (wantedInitially o N) ∧ reads t = [] ∧ printed t = [] := by
  unfold initialOutput Simulation.initialOutput wantedInitially
  by_cases hb : o.outputInitial = true
  · rw [if_pos hb, if_pos hb, if_pos hb]
    unfold writeNetwork writeOpinions Simulation.writeNetwork Simulation.writeOpinions
    cases e1 : NetworkIO.toFile R.text N with
    | error x =>
      left
      refine ⟨[], x, [], ?_, rfl, List.nil_prefix, .nil, rfl, rfl⟩
      rw [Proc.bind_error (t := []) (e := x)]
      rw [Proc.lift_bind]
    | ok c =>
      have h1 : ∀ d : Disk, Proc.bind W (Proc.lift (.ok c)) (fun contents => Proc.event (.write (join dir (Simulation.networkName o.startNumberingFrom)) contents)) d =
          ([.write (join dir (Simulation.networkName o.startNumberingFrom)) c], .ok ()) := by
        intro d; rw [Proc.lift_bind]; rfl
      rw [Proc.bind_ok (h1 d), Proc.lift_bind]
      cases e2 : AgentIO.toFile R.agents N.agents with
      | error x =>
        left
        exact ⟨_, x, [⟨.network, o.startNumberingFrom, N⟩], rfl, rfl, ⟨[⟨.opinions, o.startNumberingFrom, N⟩], rfl⟩, .cons ⟨rfl, e1⟩ .nil, rfl, rfl⟩
      | ok c' =>
        right
        exact ⟨_, rfl, .cons ⟨rfl, e1⟩ (.cons ⟨rfl, e2⟩ .nil), rfl, rfl⟩
  · rw [if_neg hb, if_neg hb, if_neg hb]
    exact .inr ⟨[], rfl, .nil, rfl, rfl⟩

/-- What `run` does, also if it fails. -/
theorem run_history {M : Machine A F S} (hM : M.Counts) (hnet : ∀ s, M.network (M.reset s) = M.network s) (W : World) (R : Simulation.Render A F)
    (dir : String) (o : OutputSettings) (fuel : Nat) (s : S) (d : Disk) :
    ∃ K st ws, IsRunSoFar M (M.reset s) K st ∧ ws <+: wanted o (fun k => M.network (st k)) K ∧
      List.Forall₂ (FulfilsIn R dir) (writes (run W M R dir o fuel s d).1) ws ∧ reads (run W M R dir o fuel s d).1 = [] ∧ K ≤ fuel ∧
      Ended M R o fuel K st (ws = wanted o (fun k => M.network (st k)) K) (run W M R dir o fuel s d).2 ∧
      printed (run W M R dir o fuel s d).1 = startLines ++ progressLines W o 0 K ++
        closingLines W K (run W M R dir o fuel s d).2 := by
  unfold run
  rw [Proc.print_bind]
  dsimp only
  rw [writes_append, writes_print, reads_append, reads_print, printed_append, printed_print, List.nil_append, List.nil_append]
  rcases initialOutput_cases W R dir o (M.network s) d with ⟨t, e, ws, h1, h2, h3, h4, h5, h6⟩ | ⟨t, h1, h4, h5, h6⟩
  · refine ⟨0, fun _ => M.reset s, ws, ⟨rfl, by simp, by simp⟩, ?_, ?_, ?_, by omega, ?_, ?_⟩
    · unfold wanted; dsimp only; rw [hnet]; simpa using h3
    · rw [Proc.bind_error h1]; exact h4
    · rw [Proc.bind_error h1]; exact h5
    · rw [Proc.bind_error h1]; exact .unwritable e (.inl ⟨rfl, by rw [hnet]; exact h2⟩)
    · rw [Proc.bind_error h1]; dsimp only [closingLines]; rw [h6]; unfold progressLines; simp
  · rw [Proc.bind_ok h1]
    dsimp only
    rw [writes_append, reads_append, printed_append, h5, h6, List.nil_append, List.nil_append]
    obtain ⟨K, st, ws, hrun, hn, hws, hfor, hr, hpr, hK, hstop⟩ := runLoop_history (W := W) (R := R) (dir := dir) (o := o) hM fuel (M.reset s) (d.replay W t)
    have h0 : M.nIterations (M.reset s) = 0 := hM.reset s
    have hwant : wanted o (fun k => M.network (st k)) K = wantedInitially o (M.network s) ++ wantedFrom M o (M.nIterations (M.reset s)) st K := by
      unfold wanted wantedFrom
      dsimp only
      rw [hrun.start, hnet, h0]
      simp only [Nat.zero_add]
    rcases hl : runLoop W M R dir o fuel (M.reset s) (d.replay W t) with ⟨t', r⟩
    rw [hl] at hfor hr hpr hstop
    dsimp only at hfor hr hpr hstop
    have hpre : wantedInitially o (M.network s) ++ ws <+: wanted o (fun k => M.network (st k)) K := by
      rw [hwant]; exact (List.prefix_append_right_inj _).mpr hws
    cases r with
    | error e =>
      refine ⟨K, st, _, hrun, hpre, ?_, ?_, hK, ?_, ?_⟩
      · rw [Proc.bind_error hl]; exact List.rel_append h4 hfor
      · rw [Proc.bind_error hl]; exact hr
      · rw [Proc.bind_error hl, hwant]
        rcases hstop with ⟨a, b, c | ⟨rfl, c⟩⟩ | ⟨a, b⟩
        · exact .failed e b c (by rw [a])
        · exact .going b c (by rw [a])
        · exact .unwritable e (.inr ⟨a, by rw [hn K (le_refl K), h0, Nat.zero_add] at b; exact b⟩)
      · rw [Proc.bind_error hl]; dsimp only [closingLines]; rw [hpr, h0, List.append_nil]
    | ok s' =>
      obtain ⟨rfl, hfin, a⟩ := hstop
      refine ⟨K, st, _, hrun, hpre, ?_, ?_, hK, ?_, ?_⟩
      · rw [Proc.bind_ok hl]
        dsimp only [Proc.printAll]
        rw [writes_append, writes_print, List.append_nil]
        exact List.rel_append h4 hfor
      · rw [Proc.bind_ok hl]
        dsimp only [Proc.printAll]
        rw [reads_append, reads_print, hr]; rfl
      · rw [Proc.bind_ok hl, hwant]
        exact .done hfin (by rw [a])
      · rw [Proc.bind_ok hl]
        dsimp only [Proc.printAll]
        rw [endLines_eq]
        dsimp only [closingLines]
        rw [printed_append, printed_print, hpr, h0, hn K (le_refl K), h0, Nat.zero_add, List.append_assoc]

section
variable [Zero F] [One F] [Sub F] [Mul F] [Add F] [Div F] [Neg F] [NatCast F] [IntCast F] [LT F] [LE F] [DecidableLT F] [DecidableLE F]

theorem machine_counts (env : Env F G) (k : AgentKind) : (Program.machine env k).Counts where
  reset s := by cases s <;> rfl
  iteration s t h := by
    cases s with
    | deGroot s =>
      cases e : s.iteration with
      | error x => have : (s.iteration).map ModelState.deGroot = .ok t := h; rw [e] at this; cases this
      | ok u =>
        have : (s.iteration).map ModelState.deGroot = .ok t := h
        rw [e] at this; cases this
        exact DeGroot.counts.iteration s u e
    | deffuant s =>
      have h : (s.iteration env.rng Deffuant.updateRule).map ModelState.deffuant = .ok t := h
      cases e : s.iteration env.rng Deffuant.updateRule with
      | error x => rw [e] at h; cases h
      | ok u =>
        rw [e] at h; cases h
        exact (Deffuant.counts (r := env.rng) Deffuant.updateRule_counter).iteration s u e
    | activity s =>
      have h : (s.iteration env.math env.pick env.rng).map ModelState.activity = .ok t := h
      cases e : s.iteration env.math env.pick env.rng with
      | error x => rw [e] at h; cases h
      | ok u =>
        rw [e] at h; cases h
        exact (Activity.counts env.math env.pick env.rng).iteration s u e
    | inertial s =>
      have h : (s.iteration env.math env.pick env.rng).map ModelState.inertial = .ok t := h
      cases e : s.iteration env.math env.pick env.rng with
      | error x => rw [e] at h; cases h
      | ok u =>
        rw [e] at h; cases h
        exact (Inertial.counts env.math env.pick env.rng).iteration s u e
    | vector s =>
      have h : (s.iteration env.rng (Deffuant.updateVector env.rng)).map ModelState.vector = .ok t := h
      cases e : s.iteration env.rng (Deffuant.updateVector env.rng) with
      | error x => rw [e] at h; cases h
      | ok u =>
        rw [e] at h; cases h
        exact (Deffuant.counts (r := env.rng) (Deffuant.updateVector_counter env.rng)).iteration s u e

theorem machine_network (env : Env F G) (k : AgentKind) (s : ModelState F G k) :
    (Program.machine env k).network ((Program.machine env k).reset s) = (Program.machine env k).network s := by
  cases s <;> rfl

end

/-! ## Killing a process -/

/-- What a killed process leaves behind, if all its files have different paths. -/
theorem AfterKill.left {W : World} {d d' : Disk} {t : List Event} (h : AfterKill W d t d') (hn : ((writes t).map fun w => W.resolve w.1).Nodup)
    (hc : ∀ w ∈ writes t, W.canWrite w.1 = true) : ∃ whole cut rest, writes t = whole ++ cut ++ rest ∧ LeftBehind W d d' whole cut := by
  cases h with
  | between a b h =>
    subst h
    rw [writes_append] at hn hc ⊢
    refine ⟨writes a, [], writes b, by simp, by simp, ?_, by simp, ?_⟩
    · intro w hw
      rw [List.map_append, List.nodup_append] at hn
      exact Disk.replay_written W hn.1 hw (hc w (List.mem_append_left _ hw))
    · intro x hx
      exact Disk.replay_other W (fun w hw => hx w (List.mem_append_left _ hw))
  | during a b path contents part h hp hw =>
    subst h
    have e : writes (a ++ .write path contents :: b) = writes a ++ [(path, contents)] ++ writes b := by
      rw [writes_append, List.append_assoc]; rfl
    rw [e] at hn hc ⊢
    refine ⟨writes a, [(path, contents)], writes b, rfl, by simp, ?_, ?_, ?_⟩
    · intro w hw'
      rw [List.append_assoc, List.map_append, List.nodup_append] at hn
      have hne : W.resolve w.1 ≠ W.resolve path :=
        hn.2.2 _ (List.mem_map.mpr ⟨w, hw', rfl⟩) _ (List.mem_map.mpr ⟨(path, contents), by simp, rfl⟩)
      show (if W.resolve w.1 = W.resolve path then some part else d.replay W a (W.resolve w.1)) = _
      rw [if_neg hne]
      exact Disk.replay_written W hn.1 hw' (hc w (by simp [hw']))
    · intro w hw'
      obtain rfl := List.mem_singleton.mp hw'
      exact ⟨part, hp, if_pos rfl⟩
    · intro x hx
      show (if x = W.resolve path then some part else d.replay W a x) = _
      rw [if_neg (fun he => hx (path, contents) (by simp) he.symm)]
      exact Disk.replay_other W (fun w hw => hx w (List.mem_append_left _ hw))

end Effects
end Seldon
