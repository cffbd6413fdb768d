import Verif.Spec.Demo
import Verif.Model.Demo
import Verif.Proof.Tame
/-! # The example DemoBasic: lemmas -/
namespace Ush
open Spec

/-- Events that do not touch the LED. -/
def Dull (l : List Event) : Prop := ∀ s, l.foldl ledStep s = s

theorem Dull.append {a b : List Event} (ha : Dull a) (hb : Dull b) : Dull (a ++ b) := fun s => by rw [List.foldl_append, ha, hb]

theorem Dull.cons {e : Event} {b : List Event} (he : ∀ s, ledStep s e = s) (hb : Dull b) : Dull (e :: b) := fun s => by rw [List.foldl_cons, he, hb]

theorem Dull.nil : Dull [] := fun _ => rfl

theorem dull_outs (s : Str) : Dull (outs s) := by
  unfold outs
  induction s with
  | nil => exact .nil
  | cons c s ih => exact .cons (fun _ => rfl) ih

theorem dull_ret (rs : List Status) : Dull (rs.map .ret) := by
  induction rs with
  | nil => exact .nil
  | cons c s ih => exact .cons (fun _ => rfl) ih

theorem dull_cat (rs : List (Nat × Str)) : Dull (catLog rs) := by
  unfold catLog
  induction rs with
  | nil => exact .nil
  | cons c s ih => exact .append (.cons (fun _ => rfl) (dull_outs _)) ih

theorem dull_tells (E : Env) (W : World) (s : Str) : Dull (tells E W s).1 := dull_outs _

/-- The world of the example. -/
abbrev demoWorld : World := after (demo 32 (fun _ => [])) demoSetup

theorem demo_after (n : Nat) (time : List Event → Str) : after (demo n time) demoSetup = demoWorld := rfl

/-- The callbacks of the example. -/
def demoApp (time : List Event → Str) : App where
  exec := fun id _ argv =>
    match id with
    | 2 => if argv.length ≠ 2 ∨ (argv[1]? ≠ some b!"1" ∧ argv[1]? ≠ some b!"0") then [.printStatus .cmdWrongArguments] else []
    | 3 => [.print b!"error: reboot not supported..."]
    | _ => []
  get := fun id l =>
    match id with
    | 4 => b!"Use MicroShell and make fun!\r\n"
    | 5 => if led l then b!"1\r\n" else b!"0\r\n"
    | _ => (time l).take 15

theorem demo_describes (n : Nat) (time : List Event → Str) : (demoApp time).Describes (demo n time) where
  hook := fun _ _ => rfl
  exec := fun id l argv u _ => by
    simp only [demo, demoApp]
    split
    · split <;> rfl
    · rfl
    · split <;> first | rfl | simp_all
  get := fun id l u h => by
    simp only [demo, demoApp, h]
    split
    · rfl
    · rfl
    · split <;> first | rfl | simp_all
  set := fun _ _ _ _ _ => rfl

theorem chats_nil (E : Env) (W : World) : Chats E W [] := fun _ _ h => ⟨trivial, h⟩

theorem chats_print (E : Env) (W : World) (s : Str) (h : cNul ∉ s) : Chats E W [.print s] := fun _ _ hW => ⟨⟨h, trivial⟩, hW⟩

theorem chats_status (E : Env) (W : World) (s : Status) : Chats E W [.printStatus s] := fun _ _ hW => ⟨⟨trivial, trivial⟩, hW⟩

theorem demo_tame (n : Nat) (time : List Event → Str) : (demoApp time).Tame (demo n time) demoWorld where
  hook := fun _ _ => rfl
  exec := fun id l argv => by
    simp only [demoApp]
    split
    · split
      · exact chats_status _ _ _
      · exact chats_nil _ _
    · exact chats_print _ _ _ (by decide)
    · exact chats_nil _ _
  get := fun id l => by
    simp only [demoApp]
    split
    · decide
    · split <;> decide
    · exact Nat.le_trans (List.length_take_le _ _) (by decide)
  set := fun _ _ _ => chats_nil _ _

/-- How a file is found: as a command, or in a directory. -/
theorem file?_cases {V : World} {name : Str} {f : FileDesc} (h : V.file? name = some f) :
    (f ∈ V.groups.files ∧ f.name = name) ∨
      ((∀ g ∈ V.groups.files, g.name ≠ name) ∧ ∃ m ∈ V.tree, f ∈ m.files ∧ render (m.path ++ [f.name]) = resolveText V.path name) := by
  unfold World.file? at h
  cases h1 : V.groups.files.find? (fun f => f.name == name) with
  | some g =>
    rw [h1] at h
    cases h
    exact .inl ⟨List.mem_of_find?_eq_some h1, by simpa using List.find?_some h1⟩
  | none =>
    rw [h1] at h
    simp only [Option.none_or] at h
    unfold Tree.findFile at h
    obtain ⟨m, hm, hx⟩ := List.exists_of_findSome?_eq_some h
    refine .inr ⟨?_, m, hm, List.mem_of_find?_eq_some hx, by simpa using List.find?_some hx⟩
    intro g hg
    simpa using (List.find?_eq_none.mp h1) g hg

theorem file?_none {V : World} {name : Str} (h : V.file? name = none) :
    (∀ g ∈ V.groups.files, g.name ≠ name) ∧ ∀ m ∈ V.tree, ∀ f ∈ m.files, render (m.path ++ [f.name]) ≠ resolveText V.path name := by
  unfold World.file? at h
  rw [Option.or_eq_none_iff] at h
  refine ⟨fun g hg => by simpa using (List.find?_eq_none.mp h.1) g hg, fun m hm f hf => ?_⟩
  have := (List.findSome?_eq_none_iff.mp h.2) m hm
  simpa using (List.find?_eq_none.mp this) f hf

/-- The commands of the example. -/
def demoCmds : List (Str × Cb) :=
  [(b!"reboot", .user 3), (b!"help", .builtin .help), (b!"ls", .builtin .ls), (b!"cd", .builtin .cd), (b!"pwd", .builtin .pwd), (b!"cat", .builtin .cat),
   (b!"xxd", .builtin .xxd), (b!"echo", .builtin .echo)]

/-- The files of the example. -/
def demoFiles : List (Str × Option Cb × Option Nat) :=
  [(b!"/info.txt", none, none), (b!"/dev/led", none, some 5), (b!"/dev/time", none, none), (b!"/bin/toggle", some (.user 1), none), (b!"/bin/set", some (.user 2), none)]

theorem demo_cmd : ∀ f ∈ demoWorld.groups.files, ∃ p ∈ demoCmds, f.name = p.1 ∧ f.exec = some p.2 ∧ f.setData = none := by decide

theorem demo_file : ∀ m ∈ demoWorld.tree, ∀ f ∈ m.files, ∃ p ∈ demoFiles, render (m.path ++ [f.name]) = p.1 ∧ f.exec = p.2.1 ∧ f.setData = p.2.2 := by decide

theorem demo_file' : ∀ p ∈ demoFiles, ∃ m ∈ demoWorld.tree, ∃ f ∈ m.files, render (m.path ++ [f.name]) = p.1 := by decide

theorem demo_cmd' : ∀ p ∈ demoCmds, ∃ f ∈ demoWorld.groups.files, f.name = p.1 := by decide

/-- No command is a path of a file. -/
theorem demo_apart : ∀ m ∈ demoWorld.tree, ∀ p ∈ demoCmds, ∀ q ∈ demoFiles, resolveText m.path p.1 ≠ q.1 := by decide

theorem demo_lookup {V : World} (h : demoWorld.Moved V) {name : Str} {f : FileDesc} (hf : V.file? name = some f) :
    (∃ p ∈ demoCmds, name = p.1 ∧ f.exec = some p.2 ∧ f.setData = none ∧ ∀ q ∈ demoFiles, resolveText V.path name ≠ q.1) ∨
      ((∀ p ∈ demoCmds, name ≠ p.1) ∧ ∃ p ∈ demoFiles, resolveText V.path name = p.1 ∧ f.exec = p.2.1 ∧ f.setData = p.2.2) := by
  obtain ⟨m, hm, hp⟩ := Moved_path h
  rcases file?_cases hf with ⟨h1, h2⟩ | ⟨h1, m', hm', h2, h3⟩
  · rw [h.2.1] at h1
    obtain ⟨p, hp', k1, k2, k3⟩ := demo_cmd f h1
    refine .inl ⟨p, hp', by rw [← h2, k1], k2, k3, ?_⟩
    rw [← h2, k1, hp]
    exact demo_apart m hm p hp'
  · rw [h.1] at hm'
    obtain ⟨p, hp', k1, k2, k3⟩ := demo_file m' hm' f h2
    refine .inr ⟨?_, p, hp', by rw [← h3, k1], k2, k3⟩
    intro q hq he
    obtain ⟨g, hg, hgn⟩ := demo_cmd' q hq
    rw [← h.2.1] at hg
    exact h1 g hg (by rw [hgn, he])

theorem demo_missing {V : World} (h : demoWorld.Moved V) {name : Str} (hf : V.file? name = none) :
    (∀ p ∈ demoCmds, name ≠ p.1) ∧ ∀ q ∈ demoFiles, resolveText V.path name ≠ q.1 := by
  obtain ⟨h1, h2⟩ := file?_none hf
  rw [h.2.1] at h1
  rw [h.1] at h2
  constructor
  · intro q hq he
    obtain ⟨g, hg, hgn⟩ := demo_cmd' q hq
    exact h1 g hg (by rw [hgn, he])
  · intro q hq he
    obtain ⟨m, hm, f, hf, e⟩ := demo_file' q hq
    exact h2 m hm f hf (by rw [e, he])

/-- The file of the LED. -/
theorem demo_read {V : World} (h : demoWorld.Moved V) {a : Str} (ha : resolveText V.path a = b!"/dev/led") :
    ∃ f, V.file? a = some f ∧ f.getData = some 5 := by
  obtain ⟨m, hm, hp⟩ := Moved_path h
  cases hf : V.file? a with
  | none => exact absurd ha ((demo_missing h hf).2 (b!"/dev/led", none, some 5) (by decide))
  | some f =>
    refine ⟨f, rfl, ?_⟩
    rcases file?_cases hf with ⟨h1, h2⟩ | ⟨h1, m', hm', h2, h3⟩
    · rw [h.2.1] at h1
      obtain ⟨p, hp', k1, -, -⟩ := demo_cmd f h1
      rw [← h2, k1, hp] at ha
      exact absurd ha (demo_apart m hm p hp' (b!"/dev/led", none, some 5) (by decide))
    · rw [h.1] at hm'
      have : ∀ m ∈ demoWorld.tree, ∀ f ∈ m.files, render (m.path ++ [f.name]) = b!"/dev/led" → f.getData = some 5 := by decide
      exact this m' hm' f h2 (by rw [h3, ha])

/-- The command `cat`. -/
theorem demo_cat {V : World} (h : demoWorld.Moved V) : ∃ g, V.file? b!"cat" = some g ∧ g.exec = some (.builtin .cat) := by
  unfold World.file?
  rw [h.2.1]
  exact ⟨_, rfl, rfl⟩

/-- What an answer does to the device. -/
def effect (s : Bool) (x : Answer) : Device := ⟨x.2.path, x.1.foldl ledStep s⟩

theorem effect_dull {s : Bool} {x : Answer} {V : World} (h1 : Dull x.1) (h2 : x.2 = V) : effect s x = ⟨V.path, s⟩ := by
  unfold effect; rw [h1, h2]

theorem effect_errs (E : Env) (V : World) (s : Bool) (e : Status) : effect s (errs E V e) = ⟨V.path, s⟩ := effect_dull (dull_tells _ _ _) rfl

theorem effect_tells (E : Env) (V : World) (s : Bool) (e : Str) : effect s (tells E V e) = ⟨V.path, s⟩ := effect_dull (dull_tells _ _ _) rfl

/-- The commands other than `cd` and `echo` change nothing. -/
theorem builtin_dull (E : Env) (A : App) (T : Talk) (l : List Event) (b : Builtin) (as : List Str) (s : Bool) (h1 : b ≠ .cd) (h2 : b ≠ .echo) :
    effect s (builtinAnswer E A T l b as) = ⟨T.world.path, s⟩ := by
  cases b with
  | cd => exact absurd rfl h1
  | echo => exact absurd rfl h2
  | pwd => rcases as with _ | ⟨a, as⟩ <;> exact effect_tells ..
  | cat =>
    rcases as with _ | ⟨a, as⟩
    · exact effect_errs ..
    · simp only [builtinAnswer]
      split
      · exact effect_errs ..
      · exact effect_dull ((dull_cat _).append (dull_outs _)) rfl
  | xxd =>
    rcases as with _ | ⟨a, _ | ⟨a', as⟩⟩
    · exact effect_errs ..
    · simp only [builtinAnswer]
      split
      · exact effect_errs ..
      · split
        · exact effect_errs ..
        · exact effect_dull (.cons (fun _ => rfl) (dull_tells _ _ _)) rfl
    · exact effect_errs ..
  | ls =>
    rcases as with _ | ⟨a, _ | ⟨a', as⟩⟩
    · simp only [builtinAnswer]
      split
      · exact effect_errs ..
      · exact effect_tells ..
    · simp only [builtinAnswer]
      split
      · exact effect_errs ..
      · exact effect_tells ..
    · exact effect_errs ..
  | help =>
    rcases as with _ | ⟨a, _ | ⟨a', as⟩⟩
    · exact effect_tells ..
    · simp only [builtinAnswer]
      split
      · exact effect_errs ..
      · split
        · exact effect_errs ..
        · exact effect_tells ..
    · exact effect_errs ..

theorem demo_dir? {V : World} (h : demoWorld.Moved V) (a : Str) : (V.dir? a).map Mount.path =
    if resolveText V.path a = b!"/" then some [] else if resolveText V.path a = b!"/dev" then some [b!"dev"]
    else if resolveText V.path a = b!"/bin" then some [b!"bin"] else none := by
  unfold World.dir?
  rw [h.1]
  generalize resolveText V.path a = q
  have ht : demoWorld.tree.map (fun m => (render m.path, m.path)) = [(b!"/bin", [b!"bin"]), (b!"/dev", [b!"dev"]), (b!"/", [])] := by decide
  have key : ∀ t : Tree, (t.findText q).map Mount.path = ((t.map (fun m => (render m.path, m.path))).find? (fun x => x.1 == q)).map (·.2) := by
    intro t
    unfold Tree.findText
    rw [List.find?_map]
    simp only [Option.map_map]
    rfl
  rw [key, ht]
  by_cases h1 : q = b!"/"
  · subst h1; rfl
  by_cases h2 : q = b!"/dev"
  · subst h2; rfl
  by_cases h3 : q = b!"/bin"
  · subst h3; rfl
  have e1 : (b!"/" == q) = false := by simpa using fun h => h1 h.symm
  have e2 : (b!"/dev" == q) = false := by simpa using fun h => h2 h.symm
  have e3 : (b!"/bin" == q) = false := by simpa using fun h => h3 h.symm
  simp only [List.find?_cons, e1, e2, e3, List.find?_nil, Option.map_none, if_neg h1, if_neg h2, if_neg h3]

variable {n : Nat} {time : List Event → Str} {V : World}

theorem demo_builtin (h : demoWorld.Moved V) (c : UInt8) (l : List Event) (s : Bool) (name : Str) (as : List Str) (b : Builtin)
    (hb : (name, Cb.builtin b) ∈ demoCmds) (hn : ∀ q ∈ demoFiles, resolveText V.path name ≠ q.1) :
    effect s (builtinAnswer (demo n time) (demoApp time) (Talk.start V c) l b as) = Device.line ⟨V.path, s⟩ (name :: as) := by
  have n1 := hn (b!"/bin/toggle", some (.user 1), none) (by decide)
  have n2 := hn (b!"/bin/set", some (.user 2), none) (by decide)
  simp only [Device.line, if_neg n1, if_neg n2]
  by_cases b1 : b = .cd
  · subst b1
    have : name = b!"cd" := by simpa [demoCmds] using hb
    subst this
    rw [if_pos rfl]
    rcases as with _ | ⟨a, _ | ⟨a', as⟩⟩
    · exact effect_errs ..
    · simp only [builtinAnswer, World.cd]
      have e : (Talk.start V c).world = V := rfl
      rw [e]
      by_cases ha : a = []
      · rw [if_pos ha, if_pos ha]; exact effect_errs ..
      · rw [if_neg ha, if_neg ha]
        have hd := demo_dir? h a
        cases hm : V.dir? a with
        | none =>
          rw [hm] at hd
          simp only [Option.map_none]
          rw [effect_errs]
          repeat' split at hd
          · simp at hd
          · simp at hd
          · simp at hd
          · rename_i k1 k2 k3
            rw [if_neg k1, if_neg k2, if_neg k3]
        | some m =>
          rw [hm] at hd
          simp only [Option.map_some] at hd ⊢
          rw [effect_tells]
          show Device.mk m.path s = _
          repeat' split at hd
          · rename_i k1; rw [if_pos k1]; simp_all
          · rename_i k1 k2; rw [if_neg k1, if_pos k2]; simp_all
          · rename_i k1 k2 k3; rw [if_neg k1, if_neg k2, if_pos k3]; simp_all
          · simp at hd
    · exact effect_errs ..
  · have : name ≠ b!"cd" := by
      rintro rfl
      simp [demoCmds] at hb
      exact b1 hb
    rw [if_neg this]
    by_cases b2 : b = .echo
    · subst b2
      have : name = b!"echo" := by simpa [demoCmds] using hb
      subst this
      rw [if_pos rfl]
      rcases as with _ | ⟨a, _ | ⟨s', _ | ⟨t, _ | ⟨z, as⟩⟩⟩⟩
      · exact effect_tells ..
      · exact effect_tells ..
      · exact effect_errs ..
      · simp only [builtinAnswer]
        have e : (Talk.start V c).world = V := rfl
        rw [e]
        by_cases hs : s' = b!">"
        · rw [if_neg (by simpa using hs)]
          cases hf : V.file? t with
          | none =>
            have := (demo_missing h hf).2 (b!"/dev/led", none, some 5) (by decide)
            rw [if_neg (fun k => this k.2)]
            exact effect_errs ..
          | some g =>
            simp only
            rcases demo_lookup h hf with ⟨p, hp, k1, k2, k3, k4⟩ | ⟨k1, p, hp, k2, k3, k4⟩
            · rw [k3, if_neg (fun k => k4 (b!"/dev/led", none, some 5) (by decide) k.2)]
              exact effect_errs ..
            · by_cases hq : p = (b!"/dev/led", none, some 5)
              · subst hq
                rw [k4, if_pos ⟨hs, k2⟩]
                unfold effect
                simp only [List.foldl_append, List.foldl_cons]
                rw [dull_ret, dull_tells]
                show Device.mk V.path (ledStep s (.setData 5 (decodeSpec a))) = ⟨V.path, switch s ((decodeSpec a).take 1)⟩
                congr 1
                unfold ledStep switch
                rcases decodeSpec a with _ | ⟨x, xs⟩ <;> simp
              · have e5 : p.2.2 = none ∧ p.1 ≠ b!"/dev/led" := by
                  have : ∀ p ∈ demoFiles, p ≠ (b!"/dev/led", none, some 5) → p.2.2 = none ∧ p.1 ≠ b!"/dev/led" := by decide
                  exact this p hp hq
                rw [k4, e5.1, if_neg (fun k => e5.2 (by rw [← k2, k.2]))]
                exact effect_errs ..
        · rw [if_pos hs, if_neg (fun k => hs k.1)]
          exact effect_errs ..
      · exact effect_errs ..
    · have : name ≠ b!"echo" := by
        rintro rfl
        simp [demoCmds] at hb
        exact b2 hb
      rw [if_neg this]
      exact builtin_dull _ _ _ _ _ _ _ b1 b2

/-- A command line, as the device sees it. -/
theorem demo_line (h : demoWorld.Moved V) (c : UInt8) (l : List Event) (s : Bool) (argv : List Str) :
    effect s (lineAnswer (demo n time) (demoApp time) V c l argv) = Device.line ⟨V.path, s⟩ argv := by
  rcases argv with _ | ⟨name, as⟩
  · exact effect_tells ..
  · unfold lineAnswer
    have e : ∀ l, (Talk.start V c).run (demo n time) ((demoApp time).hook l (name :: as)) = (Talk.start V c, []) := fun _ => rfl
    have e0 : hookEvents (demo n time) (name :: as) = [] := rfl
    have e1 : (Talk.start V c).world = V := rfl
    simp only [e, e0, e1, List.map_nil, List.append_nil, List.nil_append]
    cases hf : V.file? name with
    | none =>
      obtain ⟨k1, k2⟩ := demo_missing h hf
      simp only [Device.line]
      rw [if_neg (k1 (b!"cd", .builtin .cd) (by decide)), if_neg (k1 (b!"echo", .builtin .echo) (by decide)),
        if_neg (k2 (b!"/bin/toggle", some (.user 1), none) (by decide)), if_neg (k2 (b!"/bin/set", some (.user 2), none) (by decide))]
      exact effect_errs ..
    | some f =>
      simp only
      unfold fileAnswer
      rcases demo_lookup h hf with ⟨p, hp, k1, k2, k3, k4⟩ | ⟨k1, p, hp, k2, k3, k4⟩
      · obtain ⟨nm, cb⟩ := p
        simp only at k1 k2
        subst k1
        rw [k2]
        cases cb with
        | builtin b =>
          simp only
          have := demo_builtin (n := n) (time := time) h c (l ++ [.exec (.builtin b) (name :: as)]) s name as b hp k4
          rw [← this]
          rfl
        | user id =>
          have n1 := k4 (b!"/bin/toggle", some (.user 1), none) (by decide)
          have n2 := k4 (b!"/bin/set", some (.user 2), none) (by decide)
          obtain ⟨rfl, rfl⟩ : name = b!"reboot" ∧ id = 3 := by simpa [demoCmds] using hp
          simp only [Device.line, if_neg n1, if_neg n2]
          rw [if_neg (by decide), if_neg (by decide)]
          exact effect_dull (.append (.append (.cons (fun _ => rfl) .nil) (dull_ret _)) (dull_tells _ _ _)) rfl
      · simp only [Device.line]
        rw [if_neg (k1 (b!"cd", .builtin .cd) (by decide)), if_neg (k1 (b!"echo", .builtin .echo) (by decide)), k2, k3]
        simp only [demoFiles, List.mem_cons, List.not_mem_nil, or_false] at hp
        rcases hp with rfl | rfl | rfl | rfl | rfl
        · exact effect_errs ..
        · exact effect_errs ..
        · exact effect_errs ..
        · rw [if_pos rfl]
          unfold effect
          simp only [List.foldl_append, List.foldl_cons, List.foldl_nil]
          rw [dull_ret, dull_tells]
          rfl
        · rw [if_neg (by decide), if_pos rfl]
          unfold effect
          simp only [List.foldl_append, List.foldl_cons, List.foldl_nil]
          rw [dull_ret, dull_tells]
          have hw : ∀ l, ((Talk.start V c).run (demo n time) ((demoApp time).exec 2 l (name :: as))).1.world = V := by
            intro l
            simp only [demoApp]
            split <;> rfl
          rw [hw]
          rcases as with _ | ⟨a, _ | ⟨a', as⟩⟩
          · simp [ledStep]
          · simp [ledStep, switch]
          · simp [ledStep]

/-- The device behind a terminal. -/
def Spec.Term.device (t : Term) : Device := ⟨t.world.path, led t.log⟩

theorem led_append (a b : List Event) : led (a ++ b) = b.foldl ledStep (led a) := List.foldl_append

theorem demo_key {t : Term} (h : demoWorld.Moved t.world) (c : UInt8) : (t.key (demo n time) (demoApp time) c).device =
    if isEnter c && t.ed.esc == .none then t.device.line (words (sent n t.ed.line)) else t.device := by
  have dull : ∀ (x : Str) (b : List Event), Dull b → led (t.log ++ .inp c :: (outs x ++ b)) = led t.log := by
    intro x b hb
    rw [led_append]
    exact (Dull.cons (fun _ => rfl) ((dull_outs x).append hb)) _
  have dull' : ∀ (x : Str), led (t.log ++ .inp c :: outs x) = led t.log := by
    intro x
    simpa using dull x [] .nil
  unfold Term.key
  by_cases h1 : c = cEtx
  · subst h1
    rw [if_pos rfl, show isEnter cEtx = false from rfl, Bool.false_and, if_neg Bool.false_ne_true]
    simp only [Term.device, Term.add, dull']
  · rw [if_neg h1]
    by_cases h2 : c = cTab
    · subst h2
      rw [if_pos rfl, show isEnter cTab = false from rfl, Bool.false_and, if_neg Bool.false_ne_true]
      split
      · simp only [Term.device, Term.add, dull']
      · simp only [Term.device, Term.add]
        rw [show [Event.inp cTab] = .inp cTab :: outs [] from rfl, dull']
    · rw [if_neg h2]
      cases h3 : isEnter c && t.ed.esc == .none with
      | false => simp only [Bool.false_eq_true, if_false, Term.device, Term.add, dull']
      | true =>
        simp only [if_true]
        have := demo_line (n := n) (time := time) h c (t.log ++ .inp c :: outs (enterEcho c)) (led t.log) (words (sent n t.ed.line))
        unfold effect at this
        simp only [Term.device, Term.add, show (demo n time).inSize = n from rfl]
        rw [← this, ← List.append_assoc, led_append, dull']

end Ush
