# Writes a Lean file that compares the operations of Verif/Num/B64.lean with the hardware on 400 operand pairs:
#   python3 tools/b64_conformance.py > /tmp/conf.lean && cd lean && lake env lean /tmp/conf.lean   (prints 400, 0, [])
import random, struct, math
from fractions import Fraction
random.seed(7)
def rnd():
    k=random.random()
    if k<0.15: return random.choice([0.0,-0.0,math.inf,-math.inf,math.nan,1.0,-1.0,5e-324,-5e-324,1.7976931348623157e308,2.2250738585072014e-308])
    if k<0.4: return struct.unpack('<d',struct.pack('<Q',random.getrandbits(64)))[0]
    if k<0.7: return random.uniform(-10,10)
    if k<0.85: return float(random.randint(-2**54,2**54))
    return random.uniform(-1,1)*2.0**random.randint(-560,-500)
def lit(x):
    if math.isnan(x): return "N"
    if math.isinf(x): return "P" if x>0 else "M"
    if x==0: return "(Z %s)"%("true" if math.copysign(1,x)<0 else "false")
    f=Fraction(x); return "(b ((%d)/%d))"%(f.numerator,f.denominator)
def div(x,y):
    try: return x/y
    except ZeroDivisionError:
        if math.isnan(x) or x==0: return math.nan
        return math.copysign(math.inf, math.copysign(1,x)*math.copysign(1,y))
print('''import Verif.Num.B64
open Verif
instance : B64Env := ⟨fun x => x, false⟩
def b (q : ℚ) : B64 := .make false (.fin q)
def Z (s : Bool) : B64 := .make s (.fin 0)
def N : B64 := .make false .nan
def P : B64 := .make false .posInf
def M : B64 := .make false .negInf
set_option maxRecDepth 100000 in
def tests : List (B64 × B64 × B64 × B64 × B64 × B64) := [''')
L=[]
for i in range(400):
    x,y=rnd(),rnd()
    if random.random()<0.1: y=x
    if random.random()<0.05: y=-x
    L.append("(%s,%s,%s,%s,%s,%s)"%tuple(map(lit,(x,y,x+y,x-y,x*y,div(x,y)))))
print(",\n".join(L)+"]")
print('''#eval tests.length
#eval (tests.filter fun (x,y,a,s,m,d) => !(decide (x +. y = a) && decide (x -. y = s) && decide (x *. y = m) && decide (x /. y = d))).length
#eval (tests.filter fun (x,y,a,s,m,d) => !(decide (x +. y = a) && decide (x -. y = s) && decide (x *. y = m) && decide (x /. y = d))).take 3 |>.map fun (x,y,a,s,m,d) => (x.val,y.val,(x+.y).val,a.val,s.val,(x*.y).val,m.val,(x/.y).val,d.val)''')
