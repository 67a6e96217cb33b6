#!/usr/bin/env python3
"""Seeded-bug runs.  Usage: seed.py MUTANTS.json [ids...]
Each mutant: {"id", "definition", "file", "old", "new", "edit", "claim", "expect": [theorem prefixes]} and
optionally "only": [modules], to recompile and look at these property modules only.
Copies /verif/lean to a scratch directory, applies the edit to the model, recompiles every affected
module with a driver that keeps going after a failed proof (the failed declaration then rests on
the error axiom), and lists the property theorems that no longer have a proof: those which rest,
directly or through a lemma, on a failed declaration or which no longer exist.
"""
import json, os, re, subprocess, sys, shutil, concurrent.futures as cf
SRC = "/verif/lean"
SCR = os.environ.get("SEED_SCRATCH", "/tmp/seed")
DRIVER = r'''
import Lean
open Lean Elab
unsafe def main (args : List String) : IO UInt32 := do
  let [file, mod, out] := args | throw (IO.userError "usage")
  initSearchPath (← findSysroot) ((← IO.getEnv "LEAN_PATH").map System.SearchPath.parse |>.getD [])
  enableInitializersExecution
  let input ← IO.FS.readFile file
  let ictx := Parser.mkInputContext input file
  let (header, ps, msgs) ← Parser.parseHeader ictx
  let mainMod := mod.toName
  let (env, msgs) ← processHeader header {} msgs ictx 0 (mainModule := mainMod)
  let env := env.setMainModule mainMod
  let st ← IO.processCommands ictx ps (Command.mkState env msgs {})
  let mut errs := 0
  for m in st.commandState.messages.toList do
    if m.severity == .error then
      errs := errs + 1
      let s ← m.data.toString
      IO.println s!"ERR {m.pos.line} {(s.take 150).toString.replace "\n" " "}"
  writeModule st.commandState.env out
  return 0
'''
CHECK = r'''
import Lean
open Lean
partial def go (env : Environment) (n : Name) : StateM (NameSet × NameSet) Unit := do
  let (seen, ax) ← get
  if seen.contains n then return
  set (seen.insert n, ax)
  match env.find? n with
  | none => return
  | some ci =>
    let deps := ci.type.getUsedConstants ++ (match ci.value? (allowOpaque := true) with | some v => v.getUsedConstants | none => #[])
    if let .axiomInfo _ := ci then modify fun (s, a) => (s, a.insert n)
    for d in deps do go env d
unsafe def main (args : List String) : IO Unit := do
  initSearchPath (← findSysroot) ((← IO.getEnv "LEAN_PATH").map System.SearchPath.parse |>.getD [])
  enableInitializersExecution
  let mods := if args.isEmpty then #[`Verif] else (args.map String.toName).toArray
  let env ← importModules (mods.map fun m => {module := m}) {} 0
  let own := args.map String.toName
  for (n, ci) in env.constants.map₁.toList do
    let here := args.isEmpty || (match env.getModuleIdxFor? n with | some i => own.contains env.header.moduleNames[i.toNat]! | none => false)
    if here && (`Verif.Props).isPrefixOf n && ((n.getString!).startsWith "C" ) then
      if let .thmInfo _ := ci then
        let (_, (_, ax)) := (go env n).run ({}, {})
        IO.println s!"{if ax.contains ``sorryAx then "BAD" else "OK"} {n}"
'''
KDEC = r'''
open Lean Elab Tactic in
elab "kdec" : tactic => do
  let g ← getMainGoal
  g.withContext do
    let p ← instantiateMVars (← g.getType)
    let d ← Meta.mkDecide p
    g.assign (mkApp3 (mkConst ``of_decide_eq_true) p d.appArg! (mkApp2 (mkConst ``Eq.refl [1]) (mkConst ``Bool) (mkConst ``true)))
end Verif
'''
def prepare():
    """In the scratch copy, a decision by the kernel that fails must fail at once: the message of
    Lean's own tactic can take all the memory."""
    p = SCR + "/Verif/Model/Krfl.lean"; t = open(p).read()
    t = t.replace("import Lean.Elab.Tactic.Basic", "import Lean.Elab.Tactic.Basic\nimport Lean.Meta.AppBuilder")
    i = t.rindex("end Verif"); open(p, "w").write(t[:i] + KDEC)
    for m, p in mods().items():
        t = open(p).read()
        if "decide +kernel" in t:
            t = t.replace("decide +kernel", "kdec")
            if "import Verif.Model.Krfl" not in t: t = "import Verif.Model.Krfl\n" + t
            open(p, "w").write(t)
def mods():
    r = {}
    for d, _, fs in os.walk(SCR + "/Verif"):
        for f in fs:
            if f.endswith(".lean"):
                p = os.path.join(d, f)
                r[os.path.relpath(p, SCR)[:-5].replace("/", ".")] = p
    r["Verif"] = SCR + "/Verif.lean"
    return r
def imports(p):
    return re.findall(r"^import\s+(Verif[\w.]*)", open(p).read(), re.M)
def sh(cmd, **k):
    return subprocess.run(cmd, shell=True, capture_output=True, text=True, cwd=SCR, **k)
def main():
    muts = json.load(open(sys.argv[1])); ids = sys.argv[2:]
    os.makedirs(SCR, exist_ok=True)
    subprocess.run(f"rm -rf {SCR}; cp -a {SRC} {SCR}", shell=True, check=True)
    lib = SCR + "/.lake/build/lib/lean"
    open(SCR + "/Driver.lean", "w").write(DRIVER); open(SCR + "/Check.lean", "w").write(CHECK)
    prepare()
    r = sh("lake build")
    if r.returncode: print(r.stdout[-2000:]); sys.exit("baseline does not build")
    env = dict(os.environ); env["LEAN_PATH"] = sh("lake env printenv LEAN_PATH").stdout.strip()
    base = set(l.split()[1] for l in sh("lean --run Check.lean", env=env).stdout.splitlines())
    shutil.rmtree(SCR + ".lib", ignore_errors=True); shutil.copytree(lib, SCR + ".lib")
    ms = mods(); imps = {m: [i for i in imports(p) if i in ms] for m, p in ms.items()}
    for mu in muts:
        if ids and mu["id"] not in ids: continue
        subprocess.run(f"rm -rf {lib}; cp -a {SCR}.lib {lib}", shell=True, check=True)
        edits = mu.get("edits") or [{"file": mu["file"], "old": mu["old"], "new": mu["new"]}]
        saved = {}; dirty = set(); bad = False
        for e in edits:
            p = f"{SCR}/Verif/{e['file']}"; t = open(p).read(); saved.setdefault(p, t)
            if t.count(e["old"]) != e.get("count", 1):
                print(mu["id"], "old text found", t.count(e["old"]), "times"); bad = True; break
            open(p, "w").write(t.replace(e["old"], e["new"]))
            dirty.add("Verif." + e["file"][:-5].replace("/", "."))
        if not bad:
            ch = True
            while ch:
                ch = False
                for m in ms:
                    if m not in dirty and any(i in dirty for i in imps[m]): dirty.add(m); ch = True
            only = mu.get("only", []); argv = " ".join(only); mbase = base
            if only:
                anc = set(); todo = list(only)
                while todo:
                    m = todo.pop()
                    if m not in anc: anc.add(m); todo += imps[m]
                dirty &= anc
                mbase = set(l.split()[1] for l in sh(f"lean --run Check.lean {argv}", env=env).stdout.splitlines())
            done = set(); errs = {}; pend = set(dirty); run = {}
            with cf.ThreadPoolExecutor(int(os.environ.get("SEED_JOBS", "3"))) as ex:
                while pend or run:
                    for m in sorted(pend):
                        if all(i not in dirty or i in done for i in imps[m]):
                            pend.discard(m)
                            out = f"{lib}/{m.replace('.', '/')}.olean"
                            if os.path.exists(out): os.remove(out)
                            run[ex.submit(sh, f"timeout 900 lean --run Driver.lean {ms[m]} {m} {out}", env=env)] = m
                    f = next(iter(cf.wait(run, return_when=cf.FIRST_COMPLETED).done)); m = run.pop(f); done.add(m)
                    o = f.result()
                    es = [l for l in o.stdout.splitlines() if l.startswith("ERR")]
                    if o.returncode: es.append("ERR 0 driver: " + (o.stderr + o.stdout)[-300:])
                    if es: errs[m] = es
            failed = []
            for m, es in errs.items():
                lines = open(ms[m]).read().split("\n")
                for e in es:
                    ln = int(e.split()[1]); nm = "?"
                    for i in range(min(ln, len(lines)) - 1, -1, -1):
                        g = re.match(r"(?:private |@\[.*?\] )*(?:theorem|def|lemma|instance|example|abbrev)\s*(\S*)", lines[i])
                        if g: nm = g.group(1); break
                    k = f"{m}:{nm}"
                    if k not in failed: failed.append(k)
            c = sh(f"lean --run Check.lean {argv}", env=env)
            st = dict(reversed(l.split()) for l in c.stdout.splitlines())
            broken = sorted(n.replace("Verif.Props.", "") for n in mbase if st.get(n) != "OK")
            res = {"id": mu["id"], "definition": mu["definition"], "edit": mu["edit"], "claim": mu["claim"],
                   "failed": broken, "failed_lemmas": failed[:12], "tightened": mu.get("tightened", [])}
            if c.returncode: res["check_error"] = c.stderr[-300:]
            exp = mu.get("expect", [])
            miss = [x for x in exp if not any(b.startswith(x) for b in broken)]
            if miss: res["MISSED"] = miss
            print(json.dumps(res), flush=True)
        for p, t in saved.items(): open(p, "w").write(t)
main()
