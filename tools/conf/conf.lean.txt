/- Runs the cases of tex/box_test.go and mtex/parser_test.go against the model, with IEEE doubles
and the tables of the fake backend.  Not part of the build: run with tools/conf/run.sh. -/
import Verif.Model.Mtex
import Std.Data.HashMap
open Verif

instance : GoFloat Float where
  max a b := if a.isInf && a > 0 || b.isInf && b > 0 then 1/0 else if a.isNaN || b.isNaN then 0/0 else if a < b then b else a
  lt a b := a < b
  eq a b := a == b
  isInf := Float.isInf
  inf := 1/0
  ofRat n d := Float.ofInt n / Float.ofNat d
  round a := let r := a.round; if r < 0 then -(Int.ofNat (-r).toUInt64.toNat) else Int.ofNat r.toUInt64.toNat
  ceil := Float.ceil

abbrev Tab := Std.HashMap String (List Float)

def hexS (s : GoString) : String := if s.isEmpty then "-" else
  String.join (s.map fun b => let d := Nat.toDigits 16 b; String.ofList (if d.length = 1 then '0' :: d else d))

def key (c : GoString) (f : Font Float) (math : Bool) : String :=
  s!"{hexS c} {math} {String.ofList (f.name.map Char.ofNat)} {String.ofList (f.typ.map Char.ofNat)} {f.size.toBits.toNat}"
def kkey (f : Font Float) (a b : GoString) : String :=
  s!"K {String.ofList (f.name.map Char.ofNat)} {String.ofList (f.typ.map Char.ofNat)} {f.size.toBits.toNat} {hexS a} {hexS b}"

def load (p : String) : IO Tab := do
  let ls ← IO.FS.lines p
  let mut t : Tab := {}
  for l in ls do
    let w := (l.splitOn " ")
    let k := if w.head! == "K" then 6 else 5
    t := t.insert (" ".intercalate (w.take k)) ((w.drop k).map fun x => Float.ofBits x.toNat!.toUInt64)
  return t

def mk (t : Tab) : Backend Float where
  kern f1 a f2 b _ := if f1.name == f2.name && f1.typ == f2.typ && f1.size == f2.size then 0 else ((t.get? (kkey f1 a b)).getD [0]).head!
  metrics c f _ m := match t.get? (key c f m) with
    | some [a, h, w, x1, x2, y1, y2, i] => ⟨a, h, w, x1, x2, y1, y2, i⟩
    | _ => ⟨0,0,0,0,0,0,0,0⟩
  known c f dpi m := dpi == 72 && t.contains (key c f m)
  xheight _ _ := some <| 0
  underline f dpi := (0.0625 * f.size * dpi) / 72

def S (s : String) : GoString := s.toUTF8.toList.map UInt8.toNat

def get {α} [Inhabited α] (r : Res α) : α := match r with | .ok a => a | .panic p => panic! (toString (repr p)) | .fuel => panic! "fuel"
instance : Inhabited (TNode Float) := ⟨.kern ⟨0,0⟩⟩
instance : Inhabited (CharD Float) := ⟨⟨[],0,0,0,0,⟨0,0,0,0,0,0,0,0⟩,⟨[],[],0⟩,0,false⟩⟩
instance : Inhabited (GlueD Float) := ⟨⟨0,0,0,0,0,0⟩⟩

def main (args : List String) : IO Unit := do
  let t ← load args.head!
  let be := mk t
  let st : TState Float := ⟨⟨S "default", S "rm", 12⟩, 72⟩
  let ch := fun s m => (TNode.char (get (newChar be (S s) st m)) : TNode Float)
  let ac := fun s m => (TNode.accent (get (newAccent be (S s) st m)) : TNode Float)
  let gl := fun s => (TNode.glue (get (newGlue (S s))) : TNode Float)
  let hl := hlistOf be
  let vl := fun l => get (vlistOf (F := Float) l)
  let K : Float → TNode Float := newKern
  let HB : Float → TNode Float := hbox
  let VB : Float → Float → TNode Float := vbox
  let inf : Float := 1/0
  let AV := [K 10, ch "A" false, ch "V" false, ch "A" false, ch "V" false, ac "é" false, ac "é" false, ch "A" false,
    ch "\\sigma" true, ch "\\sum" true, ch "\\sigma" true, K 10]
  let SS := fun r => [K 10, ch "\\sigma" true, r, ch "\\sum" true, K 10]
  let cases : List (TNode Float × Float × Float × Float) := [
    (HB 10, 10,0,0), (VB 10 20, 0,10,20), (hl [VB 10 20, HB 30] false, 30,10,20), (hl [VB 10 20, HB 30] true, 30,10,20),
    (vl [VB 10 20, HB 30], 30,30,0), (hl [VB 10 20, HB 30, hl [HB 11, HB 22] false] false, 63,10,20),
    (hl [VB 10 20, HB 30, hl [HB 11, HB 22] false, vl [HB 15, VB 11 22]] false, 78, 11, 22),
    (hl [VB 10 20, K 15, HB 30] true, 45,10,20),
    (vl [VB 10 20, vl [VB 11 22, K 10, HB 40], hl [VB 10 20, K 15, HB 30] true, HB 30], 45,103,0),
    (K 10, 10,0,0), (gl "fil",0,0,0),(gl "fill",0,0,0),(gl "filll",0,0,0),(gl "neg_fil",0,0,0),(gl "neg_fill",0,0,0),
    (gl "neg_filll",0,0,0),(gl "empty",0,0,0),(gl "ss",0,0,0),
    (vl [K 10, VB 10 20, K 10, vl [K 10, VB 11 22, K 10, HB 40, K 10], K 10, hl [K 10, VB 10 20, K 15, HB 30, K 10] true, K 10, HB 30, K 10], 65,173,0),
    (vl [K 10, VB 10 20, gl "fill", K 10, vl [K 10, VB 11 22, K 10, gl "neg_fill", HB 40, K 10], K 10, hl [K 10, VB 10 20, gl "empty", K 15, HB 30, K 10] true, K 10, gl "ss", HB 30, K 10], 65,173,0),
    (hl [K 10, gl "fil", VB 10 20, HB 30, gl "fil", hl [HB 11, gl "filll", HB 22] true, vl [HB 15, gl "neg_filll", VB 11 22]] true, 88,11,22),
    (hcentered be [VB 10 20, HB 30, K 15, HB 40, VB 20 10], 85,20,20),
    (get (vcentered [VB 10 20, HB 30, K 15, HB 40, VB 20 10]), 40,75,0),
    (ch "a" false, 5.53125, 6.71875, 0.171875), (ch "a" true, 5.53125, 6.71875, 0.171875),
    (ch " " false, 3.814453125,0,0), (ch " " true, 3.814453125,0,0),
    (ch "\\sigma" true, 6.578125,6.5625,0.171875), (ch "\\sum" true, 10.890625,12.203125,3.265625),
    (ch "\\oint" true, 6.90625,12.84375,3.609375), (ac "é" false, 6.09375,9.765625,0),
    (hrule be st (-1), inf,0.375,0.375), (hrule be st 10, inf,5,5), (vrule be st, 0.75,inf,inf),
    (hl AV true, 102.453125,12.203125,3.265625), (hl AV false, 96.3125,12.203125,3.265625),
    (hl (SS (hrule be st (-1))) true, inf,12.203125,3.265625), (hl (SS (hrule be st (-1))) false, inf,12.203125,3.265625),
    (hl (SS (vrule be st)) true, 39.787109375,12.203125,3.265625),
    (hl (SS (vrule be st) ++ [hl [] true]) false, 38.21875,12.203125,3.265625),
    (hl [K 10, ac "é" false, vrule be st, ch "\\sum" true, K 10, hl [] true, vl []] false, 37.734375,12.203125,3.265625),
    (vl [K 10, vrule be st, hrule be st 10, K 10, hl [] true, vl []], 0.75, inf, 0),
    (get (autoHeightChar be (S "(") 8.865625 2.5703124999999996 st 0), 5.0047149658203125, 9.734375, 1.6875)]
  let mut bad := 0
  let mut i := 0
  for (n, w, h, d) in cases do
    unless n.width == w && n.height == h && n.depth == d do
      bad := bad + 1
      IO.println s!"box case {i}: got {n.width} {n.height} {n.depth} want {w} {h} {d}"
    i := i + 1
  let ships : List (TNode Float × Float) := [
    (hl [K 10, vrule be st, hl [] true, vl []] false, 10.75),
    (hl [K 10, ac "é" false, vrule be st, ch "\\sum" true, K 10, hl [] true, vl []] false, 37.734375),
    (vl [hrule be st 10], inf),
    (vl [K 10, vrule be st, K 10, hl [] true, vl [], gl "filll"], 20.75),
    (vl [K 10, vrule be st, K 10, hl [] true, gl "fil", hcentered be [ch "a" false, ch "a" false], gl "fill", gl "filll",
      vl [K 10, gl "neg_fil", gl "neg_fill", gl "neg_filll", hl [] true,
        hl [K 10, K 10, ac "é" false, ch "\\sigma" true, ch "a" false, hrule be st 10, vrule be st, hl [ch "a" false] true,
          vl [VB 1 2, VB 2 3, HB 10, vl [VB 1 2, VB 1 2, HB 10, vl [], hrule be st 10, vrule be st]]] true,
        gl "filll"]], 31.8125)]
  for (n, h) in ships do
    match n with
    | .list _ hd cs => match shipCall 0 0 hd cs with
      | .ok (s, _) => unless s.s == 0 && s.v == 0 && s.h == h do
          bad := bad + 1; IO.println s!"ship {i}: {s.s} {s.v} {s.h} want {h}"
      | _ => bad := bad + 1; IO.println s!"ship {i} panics"
    | _ => pure ()
    i := i + 1
  let num : GoString → Option Float := fun s => match (String.ofList (s.map Char.ofNat)).toNat? with | some n => some n.toFloat | none => none
  let exprs : List (String × Float × Float × Float) := [
    ("hello", 24.1650390625, 7.59375, 0.140625), ("$hello$", 24.1650390625, 7.59375, 0.140625),
    ("$\\sigma$", 6.337890625, 5.46875, 0.140625), ("$\\sigma$ is $12$", 33.408203125, 7.59375, 0.140625),
    ("$1.1$", 15.9033203125, 7.296875, 0), ("$1.$", 11.4892578125, 7.296875, 0), ("$.2$", 11.4892578125, 7.421875, 0),
    ("$.$", 5.126953125, 1.234375, 0), ("$x.x$", 16.962890625, 5.46875, 0),
    ("$\\sigma \\rightarrow \\infty$", 26.943359375, 5.46875, 0.140625),
    ("$\\sigma\\,=\\infty$", 28.566927001953125, 5.46875, 0.140625),
    ("$\\sigma\\hspace{2}=\\infty$", 46.42578125, 5.46875, 0.140625),
    ("$\\cos\\theta$", 22.9443359375, 7.671875, 0.140625), ("$\\pi$", 6.0205078125, 5.46875, 0.1875),
    ("$\\frac{x}{y}$", 5.392578125, 8.2109375, 4.0249999999999995), ("$\\frac{1}{2}$", 5.70361328125, 9.490625, 3.9375),
    ("$\\frac{1}{2\\pi}$", 9.91796875, 9.490625, 4.06875), ("$\\dfrac{1}{2}$", 7.6123046875, 11.6796875, 6.1640625),
    ("$\\tfrac{1}{2}$", 5.70361328125, 9.490625, 3.9375), ("$\\binom{1}{x}$", 15.713043212890625, 8.865625, 2.5703124999999996),
    ("$\\sqrt{2x}$", 22.864837646484375, 11.146875, 0), ("$\\sqrt[3]{2x}$", 21.940084838867186, 11.146875, 0),
    ("$\\overline{ab}$", 12.4755859375, 10.06875, 0.140625)]
  for (e, w, h, d) in exprs do
    match mtexParse (fun _ => false) be num (S e) 10 72 with
    | .ok (hd, _) => unless hd.box.width == w && hd.box.height == h && hd.box.depth == d do
        bad := bad + 1; IO.println s!"{e}: got {hd.box.width} {hd.box.height} {hd.box.depth} want {w} {h} {d}"
    | .panic p => bad := bad + 1; IO.println s!"{e}: panic {repr p}"
    | .fuel => bad := bad + 1; IO.println s!"{e}: fuel"
    i := i + 1
  IO.println s!"{i} cases, {bad} failures"
