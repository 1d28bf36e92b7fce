#!/usr/bin/env python3
"""Turn the raw results of edits tried in a scratch copy (one JSON object per line on the given file) into
seeded/LOG.jsonl.  Hand-written entries are kept in seeded/HAND.jsonl and appended."""
import json, os, sys
here = os.path.dirname(os.path.dirname(os.path.abspath(__file__)))
CLAIM = {
 'Addition': 'C07', 'Subtraction': 'C08', 'Multiplication': 'C09', 'Division': 'C10', 'DivisionOrZero': 'C11',
 'MulByConstant': 'C12', 'Asg': 'C03, C04', 'col64': 'C06', 'LogicAndFlag': 'C13', 'LogicOrFlag': 'C13',
 'LinearInter': 'C14', 'QuadraticInter': 'C14', 'EqualityFlag': 'C15', 'BoolOp': 'C16', 'Swap': 'C28',
 'ArrayOp': 'C29', 'FriLinInter': 'C32', 'FriArraySwap': 'C33', 'ConstantPow': 'C30', 'PowFactor': 'C31',
 'RangeCheck': 'C17', 'BitBuilder': 'C18', 'BitDecomp': 'C18', 'BitComp': 'C19', 'CompUnchecked': 'C21',
 'CompChecked': 'C22', 'CompFlag': 'C23', 'DivRem': 'C24', 'Exponentiation': 'C25', 'Sqrt': 'C26',
 'BitShift': 'C27', 'UnifiedAddition': 'C34', 'StateSelector': 'C35', 'Zkevm': 'C36-C40', 'ZkState': 'C41',
 'GateMover': 'C42', 'Batch': 'C43', 'ConstBatch': 'C44', 'Manifest': 'C45, C54, C55', 'HuangLu': 'C46, C47',
 'NonNative': 'C48', 'Ed25519': 'C49', 'Connectedness': 'C50', 'Stretcher': 'C53', 'Prog': 'C56',
 'Circuit': 'C01, C02, C05', 'Cmd': 'C01', 'isSatisfied': 'C01', 'runCmds': 'C01', 'selOn': 'C01',
 'enableRows': 'C01',
}
FILE = {'GateId': 'C51, C52', 'Arith': 'C07-C12', 'Circuit': 'C01, C02, C05', 'Assignment': 'C03, C04, C06',
        'Manifest': 'C45, C54, C55', 'Batch': 'C43', 'HuangLu': 'C46, C47', 'Connectedness': 'C50', 'Program': 'C56'}
# outcome of the edits which no theorem refused: (definition suffix, fragment of the edit) -> (claim, tightened)
FIX = json.load(open(os.path.join(here, 'tools', 'survivors.json')))
out = []
for line in open(sys.argv[1]):
    r = json.loads(line)
    d = r['definition'].removeprefix('Verif.')
    base = os.path.basename(r['file']).removesuffix('.lean')
    claim = CLAIM.get(d.split('.')[0]) or FILE.get(base) or CLAIM.get(base) or base
    e = {'definition': 'Verif.' + d, 'edit': {'from': r['from'].strip(), 'to': r['to'].strip()}, 'claim': claim,
         'theorems_failed': r['failed'], 'theorems_tightened': []}
    if r['status'] != 'killed':
        for f in FIX:
            if f['definition'] == d and f.get('to', '') in r['to']:
                e['theorems_tightened'] = f.get('tightened', [])
                e['note'] = f['note']
                break
        else:
            print('unexplained survivor:', d, '|', r['from'], '=>', r['to'])
            e['note'] = 'no theorem failed; under examination'
    out.append(e)
hand = os.path.join(here, 'seeded', 'HAND.jsonl')
if os.path.exists(hand):
    out += [json.loads(x) for x in open(hand) if x.strip()]
with open(os.path.join(here, 'seeded', 'LOG.jsonl'), 'w') as f:
    for e in out:
        f.write(json.dumps(e, ensure_ascii=False) + '\n')
print(len(out), 'entries')
