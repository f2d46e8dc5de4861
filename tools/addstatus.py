#!/usr/bin/env python3
"""addstatus.py Cnn status note"""
import json,sys,os
p=os.path.dirname(os.path.abspath(__file__))+'/status.json'
d=json.load(open(p)); d[sys.argv[1]]={"status":sys.argv[2],"note":sys.argv[3]}
json.dump(d,open(p,'w'),indent=1)
