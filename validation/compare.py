"""Compares two PDF files token by token. Where the files have different decimals, they should at least be the same f32."""
import re, struct, sys
def tokens(path):
    return open(path, 'rb').read().split()
a, b = tokens(sys.argv[1]), tokens(sys.argv[2])
f32 = lambda t: struct.pack('f', float(t))
print('tokens:', len(a), len(b))
same, printed, numbers, other = 0, [], [], []
for x, y in zip(a, b):
    if x == y: same += 1
    elif re.fullmatch(rb'-?\d+\.\d+', x) and re.fullmatch(rb'-?\d+\.\d+', y): (printed if f32(x) == f32(y) else numbers).append((x, y))
    else: other.append((x, y))
print(same, 'the same,', len(printed), 'the same f32 printed otherwise', printed, ',', len(numbers), 'different f32', numbers, ',', len(other), 'offsets and lengths', other)
