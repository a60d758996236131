import Verif.Spec.Conc
/- A call of Transform is a program of atomic accesses to memory. -/
namespace JT
open Spec

variable {α β : Type}

/-- Sequential composition. -/
def Spec.Prog.bind (f : α → Prog β) : Prog α → Prog β
  | .done (.ok a) => f a
  | .done .err => .done .err
  | .done .panic => .done .panic
  | .read a k => .read a fun c => (k c).bind f
  | .scan k => .scan fun h => (k h).bind f
  | .alloc c k => .alloc c fun a => (k a).bind f
  | .write a c k => .write a c (k.bind f)
  | .readSet i k => .readSet i fun t => (k t).bind f
  | .writeSet i t k => .writeSet i t (k.bind f)
  | .choose k => .choose fun n => (k n).bind f

/-- Handling an error. -/
def Spec.Prog.orElse (q : Prog α) : Prog α → Prog α
  | .done .err => q
  | .done (.ok a) => .done (.ok a)
  | .done .panic => .done .panic
  | .read a k => .read a fun c => orElse q (k c)
  | .scan k => .scan fun h => orElse q (k h)
  | .alloc c k => .alloc c fun a => orElse q (k a)
  | .write a c k => .write a c (orElse q k)
  | .readSet i k => .readSet i fun t => orElse q (k t)
  | .writeSet i t k => .writeSet i t (orElse q k)
  | .choose k => .choose fun n => orElse q (k n)

theorem run_bind (f : α → Prog β) : ∀ (p : Prog α) (s : St), (p.bind f).run s = (p.run >>= fun a => (f a).run) s := by
  intro p
  induction p with
  | done r => intro s; cases r <;> rfl
  | read a k ih => intro s; exact ih _ s
  | scan k ih => intro s; exact ih _ s
  | alloc c k ih => intro s; exact ih _ _
  | write a c k ih => intro s; exact ih _
  | readSet i k ih => intro s; exact ih _ s
  | writeSet i t k ih => intro s; exact ih _
  | choose k ih => intro s; exact ih _ _

theorem run_orElse (q : Prog α) : ∀ (p : Prog α) (s : St), (Prog.orElse q p).run s = orElseM p.run q.run s := by
  intro p
  induction p with
  | done r => intro s; cases r <;> rfl
  | read a k ih => intro s; exact ih _ s
  | scan k ih => intro s; exact ih _ s
  | alloc c k ih => intro s; exact ih _ _
  | write a c k ih => intro s; exact ih _
  | readSet i k ih => intro s; exact ih _ s
  | writeSet i t k ih => intro s; exact ih _
  | choose k ih => intro s; exact ih _ _

/-- The computation is a program. -/
def Stepwise (m : M α) : Prop := ∃ p : Prog α, p.run = m

namespace Stepwise

theorem lift (r : Res α) : Stepwise (M.lift r) := ⟨.done r, rfl⟩
theorem pure (a : α) : Stepwise (Pure.pure a : M α) := ⟨.done (.ok a), rfl⟩
theorem fail : Stepwise (M.fail : M α) := ⟨.done .err, rfl⟩
theorem panic : Stepwise (M.panic : M α) := ⟨.done .panic, rfl⟩

theorem bind {x : M α} {f : α → M β} (hx : Stepwise x) (hf : ∀ a, Stepwise (f a)) : Stepwise (x >>= f) := by
  obtain ⟨p, rfl⟩ := hx
  obtain ⟨q, hq⟩ := Classical.axiomOfChoice hf
  exact ⟨p.bind q, funext fun s => by rw [run_bind]; simp only [hq]⟩

theorem orElseM {x y : M α} (hx : Stepwise x) (hy : Stepwise y) : Stepwise (orElseM x y) := by
  obtain ⟨p, rfl⟩ := hx
  obtain ⟨q, rfl⟩ := hy
  exact ⟨Prog.orElse q p, funext fun s => run_orElse q p s⟩

theorem getHeap : Stepwise getHeap := ⟨.scan fun h => .done (.ok h), rfl⟩
theorem alloc (c : Cell) : Stepwise (alloc c) := ⟨.alloc c fun a => .done (.ok a), rfl⟩
theorem writeCell (a : Addr) (c : Cell) : Stepwise (writeCell a c) := ⟨.write a c (.done (.ok ())), rfl⟩
theorem writeInstrs (i : Nat) (t : Instrs) : Stepwise (writeInstrs i t) := ⟨.writeSet i t (.done (.ok ())), rfl⟩
theorem nextTick : Stepwise nextTick := ⟨.choose fun n => .done (.ok n), rfl⟩

theorem readMap (a : Addr) : Stepwise (readMap a) := by
  refine ⟨.read a fun c => match c with | some (.map m) => .done (.ok m) | _ => .done .panic, funext fun s => ?_⟩
  simp only [Prog.run, JT.readMap]
  rcases s.heap[a]? with _ | ⟨_ | _⟩ <;> rfl

theorem readSlice (a : Addr) : Stepwise (readSlice a) := by
  refine ⟨.read a fun c => match c with | some (.slice m) => .done (.ok m) | _ => .done .panic, funext fun s => ?_⟩
  simp only [Prog.run, JT.readSlice]
  rcases s.heap[a]? with _ | ⟨_ | _⟩ <;> rfl

theorem readInstrs (i : Nat) : Stepwise (readInstrs i) := by
  refine ⟨.readSet i fun c => match c with | some t => .done (.ok t) | none => .done .panic, funext fun s => ?_⟩
  simp only [Prog.run, JT.readInstrs]
  cases s.instrs[i]? <;> rfl

/-- The heap part of a computation that only allocates. -/
def onHeap (f : Heap → α × Heap) : M α := fun s => (.ok (f s.heap).1, { s with heap := (f s.heap).2 })

mutual
theorem loadP : ∀ p : P, Stepwise (onHeap (loadP p))
  | .sc x => ⟨.done (.ok (.sc x)), rfl⟩
  | .arr l => by
    have h : onHeap (JT.loadP (.arr l)) = (onHeap (JT.loadList l) >>= fun vs => JT.alloc (.slice vs) >>= fun a => Pure.pure (V.arr a)) := rfl
    rw [h]
    exact bind (loadList l) fun vs => bind (alloc _) fun a => pure _
  | .obj m => by
    have h : onHeap (JT.loadP (.obj m)) = (onHeap (JT.loadFields m) >>= fun vs => JT.alloc (.map (GMap.ofList vs)) >>= fun a => Pure.pure (V.obj a)) := rfl
    rw [h]
    exact bind (loadFields m) fun vs => bind (alloc _) fun a => pure _
theorem loadList : ∀ l : List P, Stepwise (onHeap (loadList l))
  | [] => ⟨.done (.ok []), rfl⟩
  | p :: ps => by
    have h : onHeap (JT.loadList (p :: ps)) = (onHeap (JT.loadP p) >>= fun v => onHeap (JT.loadList ps) >>= fun vs => Pure.pure (v :: vs)) := rfl
    rw [h]
    exact bind (loadP p) fun v => bind (loadList ps) fun vs => pure _
theorem loadFields : ∀ l : List (Str × P), Stepwise (onHeap (loadFields l))
  | [] => ⟨.done (.ok []), rfl⟩
  | (k, p) :: ps => by
    have h : onHeap (JT.loadFields ((k, p) :: ps)) = (onHeap (JT.loadP p) >>= fun v => onHeap (JT.loadFields ps) >>= fun vs => Pure.pure ((k, v) :: vs)) := rfl
    rw [h]
    exact bind (loadP p) fun v => bind (loadFields ps) fun vs => pure _
end

theorem load (p : P) : Stepwise (load p) := loadP p

/-- Closes goals by the structure of the computation. -/
macro "stepwise" : tactic => `(tactic| repeat' (first
  | assumption
  | exact pure _ | exact fail | exact panic | exact lift _ | exact getHeap | exact alloc _ | exact writeCell _ _ | exact writeInstrs _ _ | exact nextTick
  | exact readMap _ | exact readSlice _ | exact readInstrs _ | exact load _
  | apply bind | apply orElseM | intro _ | split))

theorem materialize (o : Out V) : Stepwise (materialize o) := by
  cases o <;> simp only [JT.materialize] <;> stepwise

theorem mergeOld (v w : V) : Stepwise (mergeOld v w) := by unfold JT.mergeOld; stepwise
theorem readBase (a : Option Addr) : Stepwise (readBase a) := by cases a <;> simp only [JT.readBase] <;> stepwise
theorem growSlice (a : Option Addr) (l l' : List V) (n : Nat) : Stepwise (growSlice a l l' n) := by unfold JT.growSlice; stepwise
theorem sliceAt (m : GMap V) (k : Str) : Stepwise (sliceAt m k) := by unfold JT.sliceAt; stepwise
theorem setKey (a : Addr) (k : Str) (v : V) : Stepwise (setKey a k v) := by unfold JT.setKey; stepwise

theorem saveInSlice : ∀ (l : List Str) (cur : Option Addr) (v : V), Stepwise (saveInSlice l cur v) := by
  intro l
  induction l with
  | nil => intro cur v; exact panic
  | cons sp rest ih =>
    intro cur v
    have h1 := readBase
    have h2 := growSlice
    have h3 := mergeOld
    unfold JT.saveInSlice
    split
    · exact fail
    · split
      · exact panic
      · refine bind (readBase cur) fun l => bind (growSlice ..) fun a => ?_
        cases rest with
        | nil => exact bind (mergeOld _ _) fun _ => bind (writeCell _ _) fun _ => pure _
        | cons s r => exact bind (orElseM (ih _ _) (alloc _)) fun _ => bind (writeCell _ _) fun _ => pure _

theorem saveLeaf (a : Addr) (p : Str) (v : V) : Stepwise (saveLeaf a p v) := by
  unfold JT.saveLeaf
  split
  · exact bind (readMap _) fun m => bind (sliceAt _ _) fun c => bind (saveInSlice _ _ _) fun b => setKey _ _ _
  · exact setKey _ _ _

theorem saveSplits : ∀ (l : List Str) (b : Bool) (a : Addr) (v : V), Stepwise (saveSplits b l a v) := by
  intro l
  induction l with
  | nil => intro b a v; unfold JT.saveSplits; exact panic
  | cons s rest ih =>
    intro b a v
    unfold JT.saveSplits
    split
    · cases rest with
      | nil => exact panic
      | cons x y => exact ih false a v
    · cases rest with
      | nil => exact saveLeaf _ _ _
      | cons x y =>
        dsimp only
        split
        · exact bind (readMap _) fun m => bind (sliceAt _ _) fun c => bind (alloc _) fun nt => bind (saveInSlice _ _ _) fun b => bind (setKey _ _ _) fun _ => ih _ _ _
        · refine bind (readMap _) fun m => ?_
          split
          · exact bind (setKey _ _ _) fun _ => ih _ _ _
          · exact bind (alloc _) fun _ => bind (setKey _ _ _) fun _ => ih _ _ _
          · exact bind (alloc _) fun _ => bind (setKey _ _ _) fun _ => ih _ _ _
          · exact fail

theorem saveInTree (a : Addr) (p : Str) (v : V) : Stepwise (saveInTree a p v) := by
  unfold JT.saveInTree
  split
  · exact pure _
  · exact saveSplits _ _ _ _

variable {env : Env}

theorem runOps : ∀ (l : List Op) (v : V), Stepwise (runOps env l v) := by
  intro l
  induction l with
  | nil => intro v; exact pure _
  | cons op l ih =>
    intro v
    unfold JT.runOps
    exact bind nextTick fun n => bind getHeap fun h => bind (lift _) fun o => bind (materialize o) fun v' => ih v'

theorem convertV (ty : Str) (v : V) : Stepwise (convertV env ty v) := bind getHeap fun _ => lift _

theorem jpGetV (p : Str) (v : V) : Stepwise (jpGetV env p v) := by
  unfold JT.jpGetV
  refine bind getHeap fun h => ?_
  split
  · exact pure _
  · exact bind (materialize _) fun _ => pure _

theorem convOrRaw (c : Conv V) (v : V) : Stepwise (convOrRaw c v) := by
  unfold JT.convOrRaw
  split
  · exact pure _
  · exact materialize _

theorem instrJSON (inp : V) (ty : Str) (mod : Mod) (ti : Instr) : Stepwise (instrJSON env inp ty mod ti) := by
  unfold JT.instrJSON
  refine bind (jpGetV _ _) fun r => ?_
  split
  · exact pure _
  · split
    · exact pure _
    · refine bind (convertV _ _) fun c => bind (convOrRaw _ _) fun v => ?_
      split
      · exact pure _
      · exact runOps _ _

theorem xfind (n : NodeId) (p : Str) : Stepwise (xfind env n p) := by unfold JT.xfind; stepwise

theorem xmlValue (ty : Str) (n : NodeId) (l : List NodeId) (i j : Nat) : Stepwise (xmlValue env ty n l i j) := by
  have h1 := fun ty v => convertV (env := env) ty v
  unfold JT.xmlValue
  split
  · exact bind (convertV _ _) fun c => materialize _
  · split
    · exact pure _
    · split
      · exact pure _
      · refine bind (convertV _ _) fun c => ?_
        split
        · exact pure _
        · exact materialize _

theorem instrXML (inp : V) (ty : Str) (mod : Mod) (ti : Instr) : Stepwise (instrXML env inp ty mod ti) := by
  unfold JT.instrXML
  split
  · refine bind (xfind _ _) fun l => ?_
    split
    · exact pure _
    · refine bind (xfind _ _) fun wc => bind (xfind _ _) fun woc => bind (xmlValue ..) fun v => ?_
      split
      · exact pure _
      · exact runOps _ _
  · exact fail

theorem instrRun (inp : V) (ty : Str) (mod : Mod) (ti : Instr) : Stepwise (instrRun env inp ty mod ti) := by
  unfold JT.instrRun
  split
  · exact instrXML ..
  · exact instrJSON ..

theorem firstLoop {run : Instr → M V} (h : ∀ i, Stepwise (run i)) : ∀ l, Stepwise (firstLoop run l) := by
  intro l
  induction l with
  | nil => exact pure _
  | cons i l ih =>
    unfold JT.firstLoop
    refine bind (h i) fun v => ?_
    split
    · exact ih
    · exact pure _

theorem concatLoop {run : Instr → M V} (h : ∀ i, Stepwise (run i)) (d : Str) : ∀ l r, Stepwise (concatLoop run d l r) := by
  intro l
  induction l with
  | nil => intro r; exact pure _
  | cons i l ih =>
    intro r
    unfold JT.concatLoop
    exact bind (h i) fun v => bind getHeap fun _ => bind (lift _) fun o => bind (materialize _) fun r => ih r

theorem instrsRun (inp : V) (ty : Str) (mod : Mod) (tid : Nat) : Stepwise (instrsRun env inp ty mod tid) := by
  unfold JT.instrsRun
  refine bind (readInstrs _) fun t => ?_
  split
  · exact firstLoop (instrRun inp ty mod) _
  · exact bind (writeInstrs _ _) fun _ => firstLoop (instrRun inp ty mod) _
  · exact concatLoop (instrRun inp ty mod) _ _ _

theorem optInstrs (inp : V) (ty : Str) (mod : Mod) (tid : Option Nat) : Stepwise (optInstrs env inp ty mod tid) := by
  cases tid
  · exact pure _
  · exact instrsRun ..

theorem samePath (ty p : Str) (inp : V) : Stepwise (samePath env ty p inp) := by
  unfold JT.samePath
  refine bind (jpGetV _ _) fun r => ?_
  split
  · exact pure _
  · refine bind (convertV _ _) fun c => bind (materialize _) fun v => ?_
    stepwise

theorem runScalar (p ty : Str) (d : V) (tid : Option Nat) (inp : V) (mod : Mod) : Stepwise (runScalar env p ty d tid inp mod) := by
  unfold JT.runScalar
  refine bind (optInstrs ..) fun v => ?_
  split
  · exact pure _
  · split
    · refine bind (samePath ..) fun v => ?_
      stepwise
    · exact pure _

theorem asSlice (v : V) : Stepwise (asSlice v) := by unfold JT.asSlice; stepwise

theorem baseJSON (d : Option Addr) (tid : Option Nat) (inp : V) (p : Str) (mod : Mod) : Stepwise (baseJSON env d tid inp p mod) := by
  unfold JT.baseJSON
  refine bind (optInstrs ..) fun v => ?_
  split
  · exact bind (asSlice _) fun _ => pure _
  · refine bind (jpGetV _ _) fun r => ?_
    split
    · split
      · exact bind (asSlice _) fun _ => pure _
      · exact pure _
    · exact pure _

theorem baseXML (d : Option Addr) (tid : Option Nat) (inp : V) (mod : Mod) : Stepwise (baseXML env d tid inp mod) := by
  unfold JT.baseXML
  refine bind (optInstrs ..) fun v => ?_
  split
  · exact bind (alloc _) fun _ => pure _
  · split
    · exact bind (asSlice _) fun _ => pure _
    · exact pure _

/-- All calls of a transformer are programs. -/
abbrev TFs (f : TF) : Prop := ∀ inp mod, Stepwise (f inp mod)

theorem itemsLoop {c : TF} (hc : TFs c) (inp : V) (p : Str) (mod : Mod) : ∀ n i acc, Stepwise (itemsLoop c inp p mod n i acc) := by
  intro n
  induction n with
  | zero => intro i acc; exact pure _
  | succ n ih => intro i acc; unfold JT.itemsLoop; exact bind (hc _ _) fun v => ih _ _

theorem itemXML {c : TF} (hc : TFs c) (mod : Mod) (x : V) : Stepwise (itemXML c mod x) := by
  unfold JT.itemXML
  split
  · exact hc _ _
  · exact pure _

theorem itemsLoopXML {c : TF} (hc : TFs c) (p : Str) (mod : Mod) : ∀ l i acc, Stepwise (itemsLoopXML c p mod l i acc) := by
  intro l
  induction l with
  | nil => intro i acc; exact pure _
  | cons x l ih => intro i acc; unfold JT.itemsLoopXML; exact bind (itemXML hc _ _) fun v => ih _ _

theorem baseResult (a : Option Addr) : Stepwise (baseResult a) := by cases a <;> simp only [JT.baseResult] <;> stepwise
theorem arrayResult (l : List V) : Stepwise (arrayResult l) := by unfold JT.arrayResult; stepwise

theorem saveBase (inp : V) (p : Str) (a : Option Addr) (b : Bool) : Stepwise (saveBase inp p a b) := by
  unfold JT.saveBase
  split
  · split
    · split
      · exact pure _
      · split
        · exact bind (saveInTree _ _ _) fun _ => pure _
        · exact fail
    · exact pure _
  · exact pure _

theorem runArray (p : Str) (d : Option Addr) (tid : Option Nat) {c : Option TF} (hc : ∀ f, c = some f → TFs f) : TFs (runArray env p d tid c) := by
  intro inp mod
  unfold JT.runArray
  split
  · refine bind (baseJSON ..) fun r => ?_
    obtain ⟨base, ch⟩ := r
    refine bind (saveBase ..) fun inp' => ?_
    split
    · exact baseResult _
    · exact bind (readBase _) fun l => bind (itemsLoop (hc _ rfl) _ _ _ _ _ _) fun out => arrayResult _
  · refine bind (baseXML ..) fun base => ?_
    split
    · exact baseResult _
    · exact bind (readBase _) fun l => bind (itemsLoopXML (hc _ rfl) _ _ _ _ _) fun out => arrayResult _

theorem childrenLoop (p : Str) (inp : V) (mod : Mod) (a : Addr) : ∀ l : List (Str × TF), (∀ x ∈ l, TFs x.2) → Stepwise (childrenLoop p inp mod a l) := by
  intro l
  induction l with
  | nil => intro _; exact pure _
  | cons x l ih =>
    intro h
    obtain ⟨cp, c⟩ := x
    unfold JT.childrenLoop
    exact bind (h _ (List.mem_cons_self ..) _ _) fun v => bind (saveInTree _ _ _) fun _ => ih fun y hy => h y (List.mem_cons_of_mem _ hy)

theorem objStart (d : Option Addr) : Stepwise (objStart d) := by unfold JT.objStart; stepwise
theorem objTarget (d : Option Addr) (v : V) : Stepwise (objTarget d v) := by
  unfold JT.objTarget
  split
  · exact objStart _
  · exact pure _
  · exact fail

theorem objFinish (p : Str) {kids : List (Str × TF)} (h : ∀ x ∈ kids, TFs x.2) (inp : V) (mod : Mod) (a : Addr) : Stepwise (objFinish env p kids inp mod a) := by
  unfold JT.objFinish
  refine bind nextTick fun n => bind (childrenLoop _ _ _ _ _ fun x hx => h x ((env.sched.isPerm n _ kids).mem_iff.mp hx)) fun _ => bind (readMap _) fun m => ?_
  stepwise

theorem runObject (p : Str) (d : Option Addr) (tid : Option Nat) {kids : List (Str × TF)} (h : ∀ x ∈ kids, TFs x.2) : TFs (runObject env p d tid kids) := by
  intro inp mod
  unfold JT.runObject
  split
  · exact bind (optInstrs ..) fun v => bind (objTarget _ _) fun a => objFinish p h _ _ _
  · split
    · exact bind (objStart _) fun a => objFinish p h _ _ _
    · refine bind (instrsRun ..) fun v => ?_
      split
      · split <;> exact pure _
      · exact pure _
      · exact bind (objStart _) fun a => objFinish p h _ _ _
      · exact bind (objStart _) fun a => objFinish p h _ _ _
      · exact bind (objStart _) fun a => objFinish p h _ _ _
      · exact fail

mutual
theorem run : ∀ t : T, TFs (t.run env)
  | .scalar p ty d tid => by unfold T.run; exact fun inp mod => runScalar ..
  | .array p d tid none => by unfold T.run; exact runArray p d tid fun f h => nomatch h
  | .array p d tid (some c) => by unfold T.run; exact runArray p d tid fun f h => by cases h; exact run c
  | .object p d tid cs => by unfold T.run; exact runObject p d tid (runKids cs)
theorem runKids : ∀ cs : List (Str × T), ∀ x ∈ T.runKids env cs, TFs x.2
  | [] => fun x h => by unfold T.runKids at h; cases h
  | (k, t) :: r => fun x h => by
    unfold T.runKids at h
    rcases List.mem_cons.mp h with rfl | h
    · exact run t
    · exact runKids r x h
end

theorem readInput (raw : Str) : Stepwise (readInput env raw) := by unfold JT.readInput; stepwise

theorem baseTransform (t : T) (raw : Str) : Stepwise (baseTransform env t raw) := by
  unfold JT.baseTransform
  refine bind (readInput _) fun inp => bind (run t _ _) fun v => bind getHeap fun h => ?_
  stepwise

end Stepwise

/-- Every call is a program. -/
theorem isCall_exists (env : Env) (t : T) (raw : Str) : ∃ p, IsCall env t raw p := by
  refine Stepwise.bind (Stepwise.baseTransform t raw) fun out => ?_
  split
  · exact .pure _
  · exact .fail
  · exact .fail

end JT
